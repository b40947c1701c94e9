import Verif.Model.Wavbrro
import Verif.Lemmas.Bincode
import Verif.Spec.Chunked
/- Lemmas about the WavBrro container. -/
namespace Atsc.WavBrro

theorem chunksOf_nil (n : Nat) : chunksOf n [] = [] := by rw [chunksOf]; simp

theorem chunksOf_step {n : Nat} (hn : n ≠ 0) {d : List F64} (hd : d ≠ []) : chunksOf n d = d.take n :: chunksOf n (d.drop n) := by
  rw [chunksOf, dif_neg (by tauto)]

theorem chunksOf_small {n : Nat} {d : List F64} (hd : d ≠ []) (h : d.length ≤ n) : chunksOf n d = [d] := by
  have : 0 < d.length := List.length_pos_iff.2 hd
  rw [chunksOf_step (by omega) hd, List.take_of_length_le h, List.drop_of_length_le h, chunksOf_nil]

theorem chunksOf_ne {n : Nat} (hn : n ≠ 0) {d : List F64} (hd : d ≠ []) : chunksOf n d ≠ [] := by
  rw [chunksOf_step hn hd]; simp

theorem chunksOf_flatten {n : Nat} (hn : n ≠ 0) (d : List F64) : (chunksOf n d).flatten = d := by
  induction hk : d.length using Nat.strong_induction_on generalizing d with
  | _ k ih =>
    by_cases hd : d = []
    · subst hd; simp [chunksOf_nil]
    · have : 0 < d.length := List.length_pos_iff.2 hd
      rw [chunksOf_step hn hd, List.flatten_cons, ih (d.drop n).length (by simp only [List.length_drop]; omega) _ rfl, List.take_append_drop]

/-- Adding a sample to the last chunk, or to a new one when the last is full. -/
def pushChunk (n : Nat) (cs : List (List F64)) (x : F64) : List (List F64) :=
  match cs.getLast? with
  | some c => if n ≤ c.length then cs ++ [[x]] else cs.dropLast ++ [c ++ [x]]
  | none => [[x]]

theorem chunksOf_snoc {n : Nat} (hn : n ≠ 0) (d : List F64) (x : F64) : chunksOf n (d ++ [x]) = pushChunk n (chunksOf n d) x := by
  induction hk : d.length using Nat.strong_induction_on generalizing d with
  | _ k ih =>
    by_cases hd : d = []
    · subst hd
      rw [List.nil_append, chunksOf_small (by simp) (by simp; omega), chunksOf_nil]; rfl
    · have hpos : 0 < d.length := List.length_pos_iff.2 hd
      by_cases hl : d.length < n
      · rw [chunksOf_small (by simp) (by simp; omega), chunksOf_small hd (by omega)]
        simp [pushChunk, hl]
      · rw [chunksOf_step hn (by simp : d ++ [x] ≠ []), List.take_append_of_le_length (by omega), List.drop_append_of_le_length (by omega),
          ih (d.drop n).length (by simp only [List.length_drop]; omega) _ rfl, chunksOf_step hn hd]
        by_cases he : d.drop n = []
        · have hlen : (d.take n).length = n := by
            have := congrArg List.length he
            simp only [List.length_drop, List.length_nil] at this
            simp only [List.length_take]; omega
          rw [he, chunksOf_nil]
          simp only [pushChunk, List.getLast?_nil, List.getLast?_singleton]
          rw [if_pos (by omega)]; simp
        · obtain ⟨c, cs, hcs⟩ := List.exists_cons_of_ne_nil (chunksOf_ne hn he)
          rw [hcs]
          simp only [pushChunk, List.getLast?_cons_cons]
          cases hg : (c :: cs).getLast? with
          | none => simp at hg
          | some l =>
            simp only
            split
            · simp
            · simp [List.dropLast_cons_of_ne_nil]

theorem chunksOf_shape (d : List F64) : WellChunked (chunksOf maxChunk d) := by
  induction hk : d.length using Nat.strong_induction_on generalizing d with
  | _ k ih =>
    by_cases hd : d = []
    · subst hd; simp [chunksOf_nil, WellChunked]
    · have hpos : 0 < d.length := List.length_pos_iff.2 hd
      have hm : maxChunk = 2048 := rfl
      by_cases hl : d.length ≤ maxChunk
      · rw [chunksOf_small hd hl]
        refine ⟨by simp, ?_⟩
        intro c hc
        simp only [List.getLast?_singleton, Option.some.injEq] at hc
        subst hc; omega
      · have hn : maxChunk ≠ 0 := by decide
        have he : d.drop maxChunk ≠ [] := by
          intro h
          have := congrArg List.length h
          simp only [List.length_drop, List.length_nil] at this; omega
        have hi := ih (d.drop maxChunk).length (by simp only [List.length_drop]; omega) _ rfl
        rw [chunksOf_step hn hd]
        obtain ⟨c, cs, hcs⟩ := List.exists_cons_of_ne_nil (chunksOf_ne hn he)
        rw [hcs] at hi ⊢
        refine ⟨?_, ?_⟩
        · intro a ha
          rw [List.dropLast_cons_of_ne_nil (by simp), List.mem_cons] at ha
          rcases ha with ha | ha
          · rw [ha, List.length_take]; omega
          · exact hi.1 a ha
        · intro a ha
          rw [List.getLast?_cons_cons] at ha
          exact hi.2 a ha

/-- `add_sample` on the structure of a slice gives the structure of the slice with one more sample. -/
theorem addSample_fromSlice (p : Profile) (d : List F64) (x : F64) (h : p = .release ∨ d.length + 1 < 4294967296) :
    (fromSlice d).addSample p x = .ok (fromSlice (d ++ [x])) := by
  have hn : maxChunk ≠ 0 := by decide
  have key : ∀ cnt : Nat, ((if isChunkFull { sampleCount := cnt, bitdepth := 5, chunks := chunksOf maxChunk d } = true then
        createChunk { sampleCount := cnt, bitdepth := 5, chunks := chunksOf maxChunk d }
      else { sampleCount := cnt, bitdepth := 5, chunks := chunksOf maxChunk d }).pushLast x)
      = .ok { sampleCount := cnt, bitdepth := 5, chunks := chunksOf maxChunk (d ++ [x]) } := by
    intro cnt
    rw [chunksOf_snoc hn]
    generalize chunksOf maxChunk d = cs
    unfold isChunkFull pushChunk
    simp only
    cases hg : cs.getLast? with
    | none =>
      have : cs = [] := by simpa using hg
      subst this
      simp [createChunk, pushLast]
    | some c =>
      by_cases hc : maxChunk ≤ c.length
      · simp [createChunk, pushLast, hc]
      · simp [pushLast, hc, hg]
  unfold addSample fromSlice
  extract_lets w1
  rw [key]
  show (if d.length % 4294967296 + 1 < 4294967296 then _ else _) = _
  have hl : (d ++ [x]).length = d.length + 1 := by simp
  rw [hl]
  by_cases hc : d.length % 4294967296 + 1 < 4294967296
  · rw [if_pos hc]
    have : (d.length + 1) % 4294967296 = d.length % 4294967296 + 1 := by omega
    rw [this]
  · rw [if_neg hc]
    rcases h with h | h
    · subst h
      have : (d.length + 1) % 4294967296 = 0 := by omega
      rw [this]
    · omega

theorem addSample_overflow (d : List F64) (x : F64) (h : d.length % 4294967296 = 4294967295) :
    ∃ e, (fromSlice d).addSample .debug x = .error e := by
  unfold addSample
  extract_lets w1
  cases hp : w1.pushLast x with
  | error e => exact ⟨e, rfl⟩
  | ok w =>
    have hw : w.sampleCount = d.length % 4294967296 := by
      unfold pushLast at hp
      split at hp
      · rw [← Except.ok.inj hp]
        show w1.sampleCount = _
        simp only [w1]
        split <;> rfl
      · cases hp
    refine ⟨.overflow, ?_⟩
    show (if w.sampleCount + 1 < 4294967296 then _ else _) = _
    rw [if_neg (by omega)]

theorem addAll_fromSlice (p : Profile) : ∀ (ys d : List F64), (p = .release ∨ d.length + ys.length < 4294967296) →
    addAll p (fromSlice d) ys = .ok (fromSlice (d ++ ys))
  | [], d, _ => by simp [addAll]
  | y :: ys, d, h => by
    have h1 := addSample_fromSlice p d y (h.imp id (by simp only [List.length_cons]; omega))
    have h2 := addAll_fromSlice p ys (d ++ [y]) (h.imp id (by simp only [List.length_cons, List.length_append, List.length_nil]; omega))
    rw [List.append_assoc, List.singleton_append] at h2
    rw [addAll, h1]
    exact h2

theorem fromSlice_nil : fromSlice [] = new := by simp [fromSlice, new, chunksOf_nil]

/-! ### the archive -/

theorem sliceAt_split {bs a b : Bytes} {p m n : Nat} (h : sliceAt bs p (m + n) = a ++ b) (ha : a.length = m) (hb : b.length = n) :
    sliceAt bs p m = a ∧ sliceAt bs (p + m) n = b := by
  unfold sliceAt at h ⊢
  rw [List.take_add, List.drop_drop] at h
  have hlen := congrArg List.length h
  simp only [List.length_append, List.length_take, List.length_drop] at hlen
  exact List.append_inj h (by simp only [List.length_take, List.length_drop]; omega)

theorem relPtr_read {pos target : Nat} {b bs : Bytes} (h : relPtr pos target = .ok b) (hs : sliceAt bs pos 4 = b) :
    b.length = 4 ∧ (pos : Int) + i32At bs pos = target := by
  unfold relPtr at h
  simp only at h
  split at h
  · rename_i hd
    have hb := (Except.ok.inj h).symm
    refine ⟨by rw [hb, leBytes_length], ?_⟩
    unfold i32At
    rw [hs, hb]
    simp only
    have hlt : (((target : Int) - (pos : Int)) % 4294967296).toNat < 256 ^ 4 := by omega
    rw [ofLE_leBytes _ _ hlt]
    split <;> omega
  · cases h

theorem relPtr_length {pos target : Nat} {b : Bytes} (h : relPtr pos target = .ok b) : b.length = 4 := by
  unfold relPtr at h
  simp only at h
  split at h
  · rw [← Except.ok.inj h, leBytes_length]
  · cases h

theorem arcVec_length {pos target n : Nat} {b : Bytes} (h : arcVec pos target n = .ok b) : b.length = 8 := by
  unfold arcVec at h
  cases hr : relPtr pos target with
  | error e => rw [hr] at h; cases h
  | ok r =>
    rw [hr] at h
    rw [← Except.ok.inj h, List.length_append, relPtr_length hr, leBytes_length]

theorem arcVec_read {pos target n : Nat} {b bs : Bytes} (h : arcVec pos target n = .ok b) (hn : n < 4294967296) (hs : sliceAt bs pos 8 = b) :
    (pos : Int) + i32At bs pos = target ∧ u32At bs (pos + 4) = n := by
  unfold arcVec at h
  cases hr : relPtr pos target with
  | error e => rw [hr] at h; cases h
  | ok r =>
    rw [hr] at h
    rw [← Except.ok.inj h] at hs
    have hrl := relPtr_length hr
    obtain ⟨h1, h2⟩ := sliceAt_split (m := 4) (n := 4) hs hrl (leBytes_length _ _)
    refine ⟨(relPtr_read hr h1).2, ?_⟩
    unfold u32At
    rw [h2, Nat.mod_eq_of_lt hn, ofLE_leBytes _ _ (by omega)]

theorem checkVec_ok {bs b : Bytes} {addr pos lo hi size align target n : Nat} (h : arcVec pos target n = .ok b) (hn : n < 4294967296)
    (hs : sliceAt bs pos 8 = b) (hlo : lo ≤ target) (hhi : target + size * n ≤ hi) (hal : (addr + target) % align = 0) :
    checkVec bs addr pos lo hi size align = some (target, n) := by
  obtain ⟨h1, h2⟩ := arcVec_read h hn hs
  unfold checkVec
  simp only [h1, h2, Int.toNat_natCast]
  rw [if_pos ⟨by omega, by omega, hal⟩]

theorem arcInner_length : ∀ {cs : List (List F64)} {pos target : Nat} {b : Bytes}, arcInner pos target cs = .ok b → b.length = 8 * cs.length
  | [], _, _, _, h => by rw [arcInner] at h; rw [← Except.ok.inj h]; rfl
  | c :: cs, pos, target, b, h => by
    rw [arcInner] at h
    cases h1 : arcVec pos target c.length with
    | error e => rw [h1] at h; cases h
    | ok a =>
      cases h2 : arcInner (pos + 8) (target + 8 * c.length) cs with
      | error e => rw [h1] at h; simp only [bind, Except.bind, h2] at h; cases h
      | ok a' =>
        rw [h1] at h; simp only [bind, Except.bind, h2] at h
        rw [← Except.ok.inj h, List.length_append, arcVec_length h1, arcInner_length h2, List.length_cons]; omega

theorem encF64_length (x : F64) : (encF64 x).length = 8 := leBytes_length _ _

theorem items_length (d : List F64) : (d.flatMap encF64).length = 8 * d.length := by
  induction d with
  | nil => rfl
  | cons x d ih => simp only [List.flatMap_cons, List.length_append, encF64_length, List.length_cons, ih]; omega

theorem itemsAt_ok {bs : Bytes} : ∀ {d : List F64} {pos : Nat}, sliceAt bs pos (8 * d.length) = d.flatMap encF64 → itemsAt bs pos d.length = d
  | [], _, _ => rfl
  | x :: d, pos, h => by
    rw [List.length_cons, show 8 * (d.length + 1) = 8 + 8 * d.length by omega, List.flatMap_cons] at h
    obtain ⟨h1, h2⟩ := sliceAt_split h (encF64_length x) (items_length d)
    rw [List.length_cons, itemsAt, itemsAt_ok h2, h1]
    unfold encF64
    rw [ofLE_leBytes _ _ (by have := x.toBits_lt; exact this), FP.ofBits_toBits]

theorem readInner_ok {bs : Bytes} {addr hi : Nat} (ha : addr % 8 = 0) : ∀ {cs : List (List F64)} {pos target : Nat} {b : Bytes},
    arcInner pos target cs = .ok b → (∀ c ∈ cs, c.length < 4294967296) → sliceAt bs pos (8 * cs.length) = b →
    sliceAt bs target (8 * cs.flatten.length) = cs.flatten.flatMap encF64 → target + 8 * cs.flatten.length ≤ hi → target % 8 = 0 →
    readInner bs addr hi cs.length pos target = some cs
  | [], _, _, _, _, _, _, _, _, _ => rfl
  | c :: cs, pos, target, b, h, hc, hs, hi1, hle, hal => by
    rw [arcInner] at h
    cases h1 : arcVec pos target c.length with
    | error e => rw [h1] at h; cases h
    | ok a =>
      cases h2 : arcInner (pos + 8) (target + 8 * c.length) cs with
      | error e => rw [h1] at h; simp only [bind, Except.bind, h2] at h; cases h
      | ok a' =>
        rw [h1] at h; simp only [bind, Except.bind, h2] at h
        rw [← Except.ok.inj h, List.length_cons, show 8 * (cs.length + 1) = 8 + 8 * cs.length by omega] at hs
        obtain ⟨s1, s2⟩ := sliceAt_split hs (arcVec_length h1) (arcInner_length h2)
        rw [List.flatten_cons, List.length_append, Nat.mul_add, List.flatMap_append] at hi1
        obtain ⟨t1, t2⟩ := sliceAt_split hi1 (items_length c) (items_length cs.flatten)
        rw [List.flatten_cons, List.length_append] at hle
        have hc1 := hc c (by simp)
        have hck := checkVec_ok (addr := addr) (lo := target) (hi := hi) (size := 8) (align := 8) h1 hc1 s1 (le_refl _) (by omega) (by omega)
        rw [List.length_cons, readInner, hck]
        simp only
        rw [readInner_ok ha h2 (fun c' hc' => hc c' (by simp [hc'])) s2 t2 (by omega) (by omega)]
        simp only [itemsAt_ok t1]

/-- Whatever `to_bytes` writes, `from_bytes` reads back, on a buffer aligned to 8 bytes. -/
theorem fromBytes_toBytes {w : WavBrro} {bs : Bytes} (h : w.toBytes = .ok bs) (hs : w.sampleCount < 4294967296) (hb : w.bitdepth < 256)
    (hc : ∀ c ∈ w.chunks, c.length < 4294967296) (hk : w.chunks.length < 4294967296) {addr : Nat} (ha : addr % 8 = 0) :
    fromBytes addr bs = .ok w := by
  obtain ⟨cnt, bd, cs⟩ := w
  simp only at hs hb hc hk
  unfold toBytes at h
  simp only [bind, Except.bind] at h
  have hil := items_length cs.flatten
  generalize hI : cs.flatten.flatMap encF64 = items at h hil
  cases h1 : arcInner items.length 0 cs with
  | error e => rw [h1] at h; cases h
  | ok inner =>
    rw [h1] at h
    have hinl := arcInner_length h1
    simp only at h
    cases h2 : arcVec (items.length + inner.length) items.length cs.length with
    | error e => rw [h2] at h; cases h
    | ok root =>
      rw [h2] at h
      have hrl := arcVec_length h2
      simp only at h
      have hbs := (Except.ok.inj h).symm
      have hlen : bs.length = items.length + inner.length + 16 := by
        rw [hbs]; simp only [List.length_append, hrl, leBytes_length, List.length_cons, List.length_nil]
      have sall : sliceAt bs 0 (items.length + (inner.length + (8 + (4 + 4)))) =
          items ++ (inner ++ (root ++ (leBytes 4 cnt ++ [UInt8.ofNat bd, 0, 0, 0]))) := by
        unfold sliceAt
        rw [List.drop_zero, List.take_of_length_le (by omega), hbs]
        simp only [List.append_assoc]
      obtain ⟨s1, s2⟩ := sliceAt_split sall rfl (by simp only [List.length_append, hrl, leBytes_length, List.length_cons, List.length_nil])
      obtain ⟨s3, s4⟩ := sliceAt_split s2 rfl (by simp only [List.length_append, hrl, leBytes_length, List.length_cons, List.length_nil])
      obtain ⟨s5, s6⟩ := sliceAt_split s4 hrl (by simp only [List.length_append, leBytes_length, List.length_cons, List.length_nil])
      obtain ⟨s7, s8⟩ := sliceAt_split s6 (leBytes_length _ _) rfl
      rw [Nat.zero_add] at *
      unfold fromBytes
      rw [if_neg (by omega)]
      simp only
      have hroot : bs.length - 16 = items.length + inner.length := by omega
      rw [hroot, if_neg (by omega)]
      rw [checkVec_ok (target := items.length) (n := cs.length) h2 hk s5 (by omega) (by omega) (by omega)]
      simp only
      rw [readInner_ok ha h1 hc (by rw [← hinl]; exact s3) (by rw [hI, ← hil]; exact s1) (by omega) (by omega)]
      simp only
      have hu : u32At bs (items.length + inner.length + 8) = cnt := by
        unfold u32At; rw [s7, ofLE_leBytes _ _ (by omega)]
      have hbd : sliceAt bs (items.length + inner.length + 8 + 4) (1 + 3) = [UInt8.ofNat bd] ++ [0, 0, 0] := s8
      have hbd2 := (sliceAt_split hbd rfl rfl).1
      rw [hu, show items.length + inner.length + 12 = items.length + inner.length + 8 + 4 by omega, hbd2]
      simp [ofLE, Nat.mod_eq_of_lt hb]

theorem arcInner_fits : ∀ {cs : List (List F64)} {pos target : Nat}, target ≤ pos → pos - target ≤ 2147483648 → (∀ c ∈ cs, 1 ≤ c.length) →
    target + 8 * cs.flatten.length ≤ pos → ∃ b, arcInner pos target cs = .ok b
  | [], _, _, _, _, _, _ => ⟨[], rfl⟩
  | c :: cs, pos, target, h1, h2, h3, h4 => by
    have hc := h3 c (by simp)
    rw [List.flatten_cons, List.length_append] at h4
    obtain ⟨b, hb⟩ := arcInner_fits (cs := cs) (pos := pos + 8) (target := target + 8 * c.length) (by omega) (by omega)
      (fun c' hc' => h3 c' (by simp [hc'])) (by omega)
    rw [arcInner, hb]
    unfold arcVec relPtr
    simp only
    rw [if_pos (by omega)]
    exact ⟨_, rfl⟩

theorem mem_chunksOf {d : List F64} {c : List F64} (hc : c ∈ chunksOf maxChunk d) : 1 ≤ c.length ∧ c.length ≤ 2048 := by
  obtain ⟨h1, h2⟩ := chunksOf_shape d
  have hne : chunksOf maxChunk d ≠ [] := by intro h; rw [h] at hc; simp at hc
  rw [← List.dropLast_concat_getLast hne] at hc
  rcases List.mem_append.1 hc with h | h
  · have := h1 c h; omega
  · rw [List.mem_singleton] at h
    have := h2 _ (List.getLast?_eq_some_getLast hne)
    rw [h]; exact this

theorem chunks_count_le {cs : List (List F64)} (h : ∀ c ∈ cs, 1 ≤ c.length) : cs.length ≤ cs.flatten.length := by
  induction cs with
  | nil => simp
  | cons c cs ih =>
    have := ih (fun c' hc' => h c' (by simp [hc']))
    have := h c (by simp)
    simp only [List.length_cons, List.flatten_cons, List.length_append]; omega

/-- The archive of a slice exists exactly when it has at most `2 ^ 28` samples. -/
theorem toBytes_fits {d : List F64} (h : d.length ≤ 268435456) : ∃ bs, (fromSlice d).toBytes = .ok bs := by
  have hf := chunksOf_flatten (n := maxChunk) (by decide) d
  have hm : ∀ c ∈ chunksOf maxChunk d, 1 ≤ c.length := fun c hc => (mem_chunksOf hc).1
  have hcnt := chunks_count_le hm
  rw [hf] at hcnt
  unfold toBytes fromSlice
  simp only [hf, bind, Except.bind]
  have hil := items_length d
  obtain ⟨inner, hin⟩ := arcInner_fits (cs := chunksOf maxChunk d) (pos := (d.flatMap encF64).length) (target := 0) (by omega) (by omega) hm
    (by rw [hf]; omega)
  have hinl := arcInner_length hin
  rw [hin]
  simp only
  unfold arcVec relPtr
  simp only
  rw [if_pos (by omega)]
  exact ⟨_, rfl⟩

theorem toBytes_panics {d : List F64} (h : 268435456 < d.length) : (fromSlice d).toBytes = .error .unwrap := by
  have hd : d ≠ [] := by intro e; subst e; simp at h
  have hf := chunksOf_flatten (n := maxChunk) (by decide) d
  have hil := items_length d
  unfold toBytes fromSlice
  simp only [hf, bind, Except.bind]
  obtain ⟨c, cs, hcs⟩ := List.exists_cons_of_ne_nil (chunksOf_ne (n := maxChunk) (by decide) hd)
  rw [hcs, arcInner]
  unfold arcVec relPtr
  simp only
  rw [if_neg (by omega)]
  rfl

end Atsc.WavBrro
