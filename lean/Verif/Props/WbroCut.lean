import Verif.Props.Wavbrro
/- C59: what a .wbro file whose writing was cut short can be read as. -/
namespace Atsc
open WavBrro

theorem checkVec_facts {bs : Bytes} {addr pos lo hi size align t k : Nat} (h : checkVec bs addr pos lo hi size align = some (t, k)) :
    (pos : Int) + i32At bs pos = t ∧ u32At bs (pos + 4) = k ∧ lo ≤ t ∧ t + size * k ≤ hi ∧ (addr + t) % align = 0 := by
  unfold checkVec at h
  simp only at h
  split at h
  · rename_i hc
    have e1 := congrArg Prod.fst (Option.some.inj h)
    have e2 := congrArg Prod.snd (Option.some.inj h)
    simp only at e1 e2
    subst e2
    obtain ⟨c1, c2, c3⟩ := hc
    rw [e1] at c3
    exact ⟨by omega, rfl, by omega, by omega, c3⟩
  · cases h

/-- Aligned items before the position up to which the bytes are those of the samples are samples. -/
theorem itemsAt_samples {bs : Bytes} {d : List F64} {hi : Nat} (hb : bs.take hi = (d.flatMap encF64).take hi) (hd : hi ≤ 8 * d.length) :
    ∀ {k t : Nat}, 8 ∣ t → t + 8 * k ≤ hi → itemsAt bs t k = (d.drop (t / 8)).take k := by
  intro k t ht hk
  obtain ⟨q, rfl⟩ := ht
  rw [Nat.mul_div_cancel_left q (by decide)]
  have hl : ((d.drop q).take k).length = k := by rw [List.length_take, List.length_drop]; omega
  have hflat : ∀ (e : List F64) (n : Nat), (e.flatMap encF64).drop (8 * n) = (e.drop n).flatMap encF64 := by
    intro e n
    conv_lhs => rw [← List.take_append_drop n e, List.flatMap_append]
    by_cases hn : n ≤ e.length
    · rw [List.drop_left' (by rw [items_length, List.length_take]; omega)]
    · rw [List.take_of_length_le (by omega), List.drop_of_length_le (l := e) (by omega), List.flatMap_nil, List.append_nil,
        List.drop_of_length_le (by rw [items_length]; omega)]
  have hs : sliceAt bs (8 * q) (8 * ((d.drop q).take k).length) = ((d.drop q).take k).flatMap encF64 := by
    rw [hl]
    unfold sliceAt
    have e1 : (bs.drop (8 * q)).take (8 * k) = ((bs.take hi).drop (8 * q)).take (8 * k) := by
      rw [List.drop_take, List.take_take, min_eq_left (by omega)]
    rw [e1, hb, List.drop_take, List.take_take, min_eq_left (by omega), hflat]
    conv_lhs => rw [← List.take_append_drop k (d.drop q), List.flatMap_append]
    rw [List.take_left' (by rw [items_length, hl])]
  have := itemsAt_ok hs
  rwa [hl] at this

/-- Whatever a reader of inner vectors finds before that position is a subsequence of the samples. -/
theorem readInner_sublist {bs : Bytes} {d : List F64} {addr hi : Nat} (ha : 8 ∣ addr) (hb : bs.take hi = (d.flatMap encF64).take hi) (hd : hi ≤ 8 * d.length) :
    ∀ {n pos lo : Nat} {cs : List (List F64)}, readInner bs addr hi n pos lo = some cs → 8 ∣ lo → cs.flatten.Sublist (d.drop (lo / 8))
  | 0, _, _, cs, h, _ => by rw [readInner] at h; rw [← Option.some.inj h]; exact List.nil_sublist _
  | n + 1, pos, lo, cs, h, hl => by
    rw [readInner] at h
    cases h1 : checkVec bs addr pos lo hi 8 8 with
    | none => rw [h1] at h; cases h
    | some tk =>
      obtain ⟨t, k⟩ := tk
      rw [h1] at h
      simp only at h
      cases h2 : readInner bs addr hi n (pos + 8) (t + 8 * k) with
      | none => rw [h2] at h; cases h
      | some cs' =>
        rw [h2] at h
        rw [← Option.some.inj h]
        obtain ⟨-, -, c1, c2, c3⟩ := checkVec_facts h1
        have ht : 8 ∣ t := (Nat.dvd_add_right ha).1 (Nat.dvd_of_mod_eq_zero c3)
        have ih := readInner_sublist ha hb hd h2 (Nat.dvd_add ht ⟨k, rfl⟩)
        rw [List.flatten_cons, itemsAt_samples hb hd ht c2]
        have e : (t + 8 * k) / 8 = t / 8 + k := by rw [Nat.add_mul_div_left t k (by decide)]
        rw [e, ← List.drop_drop] at ih
        have h3 : ((d.drop (t / 8)).take k ++ cs'.flatten).Sublist (d.drop (t / 8)) := by
          conv_rhs => rw [← List.take_append_drop k (d.drop (t / 8))]
          exact List.Sublist.append (List.Sublist.refl _) ih
        have h4 : lo / 8 ≤ t / 8 := Nat.div_le_div_right c1
        refine h3.trans ?_
        have : d.drop (t / 8) = (d.drop (lo / 8)).drop (t / 8 - lo / 8) := by rw [List.drop_drop]; congr 1; omega
        rw [this]
        exact List.drop_sublist _ _

/-- The archived vectors of the chunks, one by one. -/
theorem arcInner_entry : ∀ {cs : List (List F64)} {pos target : Nat} {b : Bytes}, arcInner pos target cs = .ok b → ∀ j < cs.length,
    ∃ (tgt : Nat) (c : List F64), c ∈ cs ∧ tgt + 8 * c.length ≤ target + 8 * cs.flatten.length ∧ arcVec (pos + 8 * j) tgt c.length = .ok (sliceAt b (8 * j) 8)
  | [], _, _, _, _, j, hj => by cases hj
  | c :: cs, pos, target, b, h, j, hj => by
    rw [arcInner] at h
    cases h1 : arcVec pos target c.length with
    | error e => rw [h1] at h; cases h
    | ok a =>
      rw [h1] at h
      cases h2 : arcInner (pos + 8) (target + 8 * c.length) cs with
      | error e => rw [h2] at h; cases h
      | ok b' =>
        rw [h2] at h
        have hb : b = a ++ b' := (Except.ok.inj h).symm
        have hal := arcVec_length h1
        rw [List.flatten_cons, List.length_append]
        cases j with
        | zero =>
          refine ⟨target, c, by simp, by omega, ?_⟩
          rw [hb]
          unfold sliceAt
          rw [Nat.mul_zero, List.drop_zero, List.take_left' hal]
          exact h1
        | succ j =>
          obtain ⟨tgt, c', k1, k2, k3⟩ := arcInner_entry h2 j (by simpa using hj)
          refine ⟨tgt, c', by simp [k1], by omega, ?_⟩
          rw [show pos + 8 * (j + 1) = pos + 8 + 8 * j by omega, k3, hb]
          unfold sliceAt
          rw [show 8 * (j + 1) = a.length + 8 * j by omega, List.drop_append, List.drop_of_length_le (l := a) (by omega), List.nil_append, Nat.add_sub_cancel_left]

/-- **C59.** However writing a .wbro file was cut short (the first write after `k1` bytes of the header, the second after `k2` bytes of the content): if what is on the disk is
read at all, it is read as a subsequence of the samples that were written, and if anything is missing, at least one sample is.  No sample is invented, changed or moved. -/
theorem C59_subsequence (d : List F64) (bs : Bytes) (h : (fromSlice d).toBytes = .ok bs) (k1 k2 addr : Nat) (ha : 8 ∣ addr) (s : List F64)
    (hr : fromFile addr (writtenFile k1 k2 bs) = .ok (.samples s)) : s.Sublist d ∧ (k2 < bs.length → s.length < d.length) := by
  -- the layout of the content
  have hf : (fromSlice d).chunks.flatten = d := chunksOf_flatten (n := maxChunk) (by decide) d
  have hmem : ∀ c ∈ (fromSlice d).chunks, 1 ≤ c.length ∧ c.length ≤ 2048 := fun c hc => mem_chunksOf hc
  obtain ⟨inner, root, tail, hin, hroot, hrl, htl, hbs⟩ : ∃ inner root tail, arcInner (8 * d.length) 0 (fromSlice d).chunks = .ok inner ∧
      arcVec (8 * d.length + inner.length) (8 * d.length) (fromSlice d).chunks.length = .ok root ∧ root.length = 8 ∧ tail.length = 8 ∧
      bs = d.flatMap encF64 ++ (inner ++ (root ++ tail)) := by
    unfold toBytes at h
    rw [hf] at h
    simp only [items_length] at h
    cases h1 : arcInner (8 * d.length) 0 (fromSlice d).chunks with
    | error e => rw [h1] at h; cases h
    | ok inner =>
      rw [h1] at h
      simp only [bind, Except.bind] at h
      cases h2 : arcVec (8 * d.length + inner.length) (8 * d.length) (fromSlice d).chunks.length with
      | error e => rw [h2] at h; cases h
      | ok root =>
        rw [h2] at h
        refine ⟨inner, root, leBytes 4 (fromSlice d).sampleCount ++ [UInt8.ofNat (fromSlice d).bitdepth, 0, 0, 0], rfl, h2, arcVec_length h2, ?_, by rw [← Except.ok.inj h]; simp only [List.append_assoc]⟩
        rw [List.length_append, leBytes_length]; rfl
  have hil := arcInner_length hin
  have hcnt := chunks_count_le fun c hc => (hmem c hc).1
  rw [hf] at hcnt
  have hlen : bs.length = 8 * d.length + 8 * (fromSlice d).chunks.length + 16 := by
    rw [hbs]; simp only [List.length_append, items_length]; omega
  have hd0 : (fromSlice d).chunks = [] → d = [] := fun e => by rw [← hf, e]; rfl
  -- the file
  have hfile := hr
  obtain ⟨w, hw, hs⟩ : ∃ w, fromBytes addr (bs.take k2) = .ok w ∧ w.getSamples = s := by
    unfold writtenFile at hr
    by_cases h0 : k2 = 0 ∨ bs = []
    · rw [if_pos h0] at hr
      exfalso
      unfold fromFile at hr
      by_cases hl : (header.take k1).length < 12
      · rw [if_pos hl] at hr; cases hr
      rw [if_neg hl] at hr
      have hk : (header.take k1).drop 12 = [] := List.drop_of_length_le (by rw [List.length_take]; exact le_trans (Nat.min_le_right _ _) (by decide))
      rw [hk] at hr
      split at hr
      · cases hr
      · cases hr
    rw [if_neg h0] at hr
    have hH : (header.take k1 ++ List.replicate (12 - k1) 0).length = 12 := by
      rw [List.length_append, List.length_take, List.length_replicate]
      show min k1 12 + (12 - k1) = 12
      omega
    generalize header.take k1 ++ List.replicate (12 - k1) 0 = H at hr hH
    unfold fromFile at hr
    rw [if_neg (by rw [List.length_append]; omega), List.drop_left' hH] at hr
    split at hr
    · cases hr
    · cases hb : fromBytes addr (bs.take k2) with
      | error e => rw [hb] at hr; cases hr
      | ok w =>
        rw [hb] at hr
        exact ⟨w, rfl, WbroRead.samples.inj (Except.ok.inj hr)⟩
  clear hfile hr
  subst hs
  by_cases hk : bs.length ≤ k2
  · rw [List.take_of_length_le hk, fromBytes_toBytes h (Nat.mod_lt _ (by decide)) (by show (5 : Nat) < 256; decide) (fun c hc => by have := hmem c hc; omega) ?_
      (Nat.mod_eq_zero_of_dvd ha)] at hw
    · rw [← Except.ok.inj hw]
      refine ⟨by unfold getSamples; rw [hf], fun hc => by omega⟩
    · by_contra hc
      have : d.length ≤ 268435456 := by
        by_contra hgt
        rw [toBytes_panics (by omega)] at h; cases h
      omega
  -- a proper beginning of the content
  have hL : (bs.take k2).length = k2 := by rw [List.length_take]; omega
  unfold fromBytes at hw
  rw [hL] at hw
  by_cases h16 : k2 < 16
  · rw [if_pos h16] at hw; cases hw
  rw [if_neg h16] at hw
  simp only at hw
  by_cases hal : (addr + (k2 - 16)) % 4 ≠ 0
  · rw [if_pos hal] at hw; cases hw
  rw [if_neg hal] at hw
  cases hc : checkVec (bs.take k2) addr (k2 - 16) 0 (k2 - 16) 8 4 with
  | none => rw [hc] at hw; cases hw
  | some tk =>
    obtain ⟨t, n⟩ := tk
    rw [hc] at hw
    simp only at hw
    cases hri : readInner (bs.take k2) addr t n t 0 with
    | none => rw [hri] at hw; cases hw
    | some cs =>
      rw [hri] at hw
      rw [← Except.ok.inj hw]
      unfold getSamples
      dsimp only
      obtain ⟨c1, c2, -, c4, -⟩ := checkVec_facts hc
      -- the vectors read lie before the end of the samples
      have ht : t < 8 * d.length ∨ d = [] := by
        by_cases hlt : k2 - 16 < 8 * d.length
        · left; omega
        by_cases hdn : d = []
        · right; exact hdn
        left
        have hpos : 0 < (fromSlice d).chunks.length := List.length_pos_iff.2 fun e => hdn (hd0 e)
        obtain ⟨r, hr⟩ : ∃ r, k2 - 16 = 8 * d.length + 4 * r := by
          obtain ⟨q, rfl⟩ := ha
          exact ⟨(k2 - 16) / 4 - 2 * d.length, by omega⟩
        have hj : r / 2 < (fromSlice d).chunks.length := by omega
        obtain ⟨tgt, c, hcm, htg, hav⟩ := arcInner_entry hin (r / 2) hj
        rw [hf] at htg
        have hc1 := hmem c hcm
        have hslice : sliceAt (bs.take k2) (8 * d.length + 8 * (r / 2)) 8 = sliceAt inner (8 * (r / 2)) 8 := by
          unfold sliceAt
          rw [List.drop_take, List.take_take, min_eq_left (by omega), hbs, List.drop_append, List.drop_of_length_le (by rw [items_length]; omega), List.nil_append,
            items_length, Nat.add_sub_cancel_left, List.drop_append, show 8 * (r / 2) - inner.length = 0 by omega, List.drop_zero, List.take_append]
          rw [show 8 - (inner.drop (8 * (r / 2))).length = 0 by rw [List.length_drop]; omega, List.take_zero, List.append_nil]
        have hread := arcVec_read hav (by omega) hslice
        rcases Nat.mod_two_eq_zero_or_one r with h2 | h2
        · have e : 8 * d.length + 8 * (r / 2) = k2 - 16 := by omega
          rw [e] at hread
          omega
        · exfalso
          have e : 8 * d.length + 8 * (r / 2) + 4 = k2 - 16 := by omega
          rw [e] at hread
          have hi : i32At (bs.take k2) (k2 - 16) = (c.length : Int) := by
            unfold i32At
            have : ofLE (sliceAt (bs.take k2) (k2 - 16) 4) = c.length := hread.2
            simp only [this]
            rw [if_pos (by omega)]
          rw [hi] at c1
          omega
      have hpre : (bs.take k2).take t = (d.flatMap encF64).take t := by
        rw [List.take_take, min_eq_left (by omega), hbs, List.take_append, show t - (d.flatMap encF64).length = 0 by
          rw [items_length]
          rcases ht with ht | ht
          · omega
          · subst ht
            have : (fromSlice ([] : List F64)).chunks.length = 0 := by rw [fromSlice_nil]; rfl
            simp only [List.length_nil] at hlen ⊢
            omega, List.take_zero, List.append_nil]
      have htle : t ≤ 8 * d.length := by
        rcases ht with ht | ht
        · omega
        · subst ht
          have : (fromSlice ([] : List F64)).chunks.length = 0 := by rw [fromSlice_nil]; rfl
          simp only [List.length_nil] at hlen ⊢
          omega
      refine ⟨by simpa using readInner_sublist ha hpre htle hri ⟨0, rfl⟩, fun _ => ?_⟩
      have hb := (readInner_bound hri (by omega)).1
      rcases ht with ht | ht
      · omega
      · exfalso
        subst ht
        have : (fromSlice ([] : List F64)).chunks.length = 0 := by rw [fromSlice_nil]; rfl
        simp only [List.length_nil] at hlen
        omega

/-- Four samples, cut behind the third: read as no samples; cut in the middle of a sample or in the header: not read.  (The buffer is at an address divisible by 8.) -/
example : okAnd ((fromSlice [FP.ofInt 7, FP.zero, FP.zero, FP.ofInt 8]).toBytes) fun bs =>
    okAnd (fromFile 16 (writtenFile 12 24 bs)) (fun r => decide (r = .samples [])) && decide (fromFile 16 (writtenFile 12 21 bs) = .error .unwrap) &&
      decide (fromFile 16 (writtenFile 10 24 bs) = .ok .formatError) := by decide +kernel

/-- Samples that happen to look like vectors: of four samples the first is read. -/
example : okAnd ((fromSlice [FP.ofInt 7, FP.ofBits 0x00000001fffffff8, FP.ofBits 0x00000001fffffff8, FP.ofInt 8]).toBytes) fun bs =>
    okAnd (fromFile 16 (writtenFile 12 32 bs)) (fun r => decide (r = .samples [FP.ofInt 7])) := by decide +kernel

end Atsc
