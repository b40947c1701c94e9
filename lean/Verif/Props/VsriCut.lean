import Verif.Props.VsriFile
import Verif.Lemmas.Stream
/- C70: an index file whose writing was cut short. -/
namespace Atsc
open Vsri

/-- A segment list is what is left of another one: some first segments, the last of which may have lost samples at its end. -/
inductive CutSegs : List Seg → List Seg → Prop
  | nil (ss : List Seg) : CutSegs [] ss
  | part (s : Seg) (n' : Int) (ss : List Seg) (h0 : 0 ≤ n') (h1 : n' ≤ s.n) : CutSegs [{ s with n := n' }] (s :: ss)
  | cons (s : Seg) {a b : List Seg} (h : CutSegs a b) : CutSegs (s :: a) (s :: b)

theorem CutSegs.mem {a b : List Seg} (h : CutSegs a b) : ∀ u ∈ a, ∃ s ∈ b, ∃ n', u = { s with n := n' } ∧ (n' = s.n ∨ 0 ≤ n' ∧ n' ≤ s.n) := by
  induction h with
  | nil ss => intro u hu; cases hu
  | part s n' ss h0 h1 => intro u hu; rw [List.mem_singleton] at hu; exact ⟨s, by simp, n', hu, .inr ⟨h0, h1⟩⟩
  | cons s h ih =>
    intro u hu
    rcases List.mem_cons.1 hu with rfl | hu
    · exact ⟨u, by simp, u.n, rfl, .inl rfl⟩
    · obtain ⟨t, ht, n', e⟩ := ih u hu
      exact ⟨t, by simp [ht], n', e⟩

theorem cut_sep {c : Char} {b : List Char} : ∀ {a l : List Char}, l <+: a ++ c :: b → l <+: a ∨ ∃ l', l = a ++ c :: l' ∧ l' <+: b := by
  intro a
  induction a with
  | nil =>
    intro l h
    rw [List.nil_append, List.prefix_cons_iff] at h
    rcases h with rfl | ⟨t, rfl, ht⟩
    · exact .inl (List.nil_prefix)
    · exact .inr ⟨t, rfl, ht⟩
  | cons x xs ih =>
    intro l h
    rw [List.cons_append, List.prefix_cons_iff] at h
    rcases h with rfl | ⟨t, rfl, ht⟩
    · exact .inl (List.nil_prefix)
    · rcases ih ht with h | ⟨l', rfl, h⟩
      · exact .inl (List.cons_prefix_cons.2 ⟨rfl, h⟩)
      · exact .inr ⟨l', rfl, h⟩

theorem prefix_not_mem {c : Char} {l a : List Char} (h : l <+: a) (hc : c ∉ a) : c ∉ l := fun hm => hc (h.subset hm)

theorem fileLines_cons {l r : List Char} (h1 : '\n' ∉ l) (h2 : '\r' ∉ l) : fileLines (l ++ '\n' :: r) = l :: fileLines r := by
  unfold fileLines
  rw [split_append h1]
  have hne := split_ne_nil '\n' r
  dsimp only
  generalize splitAtChar '\n' r = ps at *
  have e : (l :: ps).getLastD [] = ps.getLastD [] := by
    cases ps with
    | nil => exact absurd rfl hne
    | cons y ys => rfl
  rw [e, List.dropLast_cons_of_ne_nil hne, List.map_cons, stripCr_id h2, List.cons_append]

theorem fileLines_one {l : List Char} (h1 : '\n' ∉ l) : fileLines l = if l = [] then [] else [l] := by
  unfold fileLines
  rw [split_none h1]
  rfl

theorem fileLines_one' {l : List Char} (h1 : '\n' ∉ l) : fileLines l = [] ∨ fileLines l = [l] := by
  rw [fileLines_one h1]
  split_ifs
  · exact .inl rfl
  · exact .inr rfl

theorem digits_cut {q r : List Char} {k : Nat} (h : q ++ r = Nat.toDigits 10 k) : Nat.ofDigitChars 10 q 0 ≤ k := by
  have e : Nat.ofDigitChars 10 (q ++ r) 0 = k := by rw [h, Nat.ofDigitChars_ten_toDigits]
  rw [Nat.ofDigitChars_append, Nat.ofDigitChars_eq_ofDigitChars_zero] at e
  have hp : 1 ≤ 10 ^ r.length := Nat.one_le_pow _ _ (by decide)
  calc Nat.ofDigitChars 10 q 0 = 1 * Nat.ofDigitChars 10 q 0 := (one_mul _).symm
    _ ≤ 10 ^ r.length * Nat.ofDigitChars 10 q 0 := Nat.mul_le_mul_right _ hp
    _ ≤ k := by omega

/-- The beginning of a non-negative number reads as a number that is not larger. -/
theorem field_cut {q : List Char} {a x : Int} (ha : 0 ≤ a) (hq : q <+: showI32 a) (h : parseField q = .ok x) : 0 ≤ x ∧ x ≤ a := by
  have hnum : ∀ c ∈ q, NumChar c := fun c hc => show_num a c (hq.subset hc)
  have hd : ∀ l : List Char, (∀ c ∈ l, NumChar c) → l.dropWhile isSpaceChar = l := by
    intro l hl
    cases l with
    | nil => rfl
    | cons c cs => rw [List.dropWhile_cons, (hl c (by simp)).not_space]; rfl
  have ht : trimChars q = q := by
    unfold trimChars
    rw [hd _ hnum, hd _ (fun c hc => hnum c (List.mem_reverse.1 hc)), List.reverse_reverse]
  unfold parseField at h
  rw [ht] at h
  have hs : showI32 a = Nat.toDigits 10 a.toNat := by unfold showI32; rw [if_neg (by omega)]
  rw [hs] at hq
  obtain ⟨r, hr⟩ := hq
  have hle := digits_cut hr
  have hdig : ∀ c ∈ q, c.isDigit = true := fun c hc =>
    by
      have hm : c ∈ Nat.toDigits 10 a.toNat := by rw [← hr]; simp [hc]
      exact Nat.isDigit_of_mem_toDigits (by decide) (by decide) hm
  cases q with
  | nil => simp [parseI32] at h
  | cons c cs =>
    have hc := hdig c (by simp)
    have h1 : c ≠ '-' := by rintro rfl; revert hc; decide
    have h2 : c ≠ '+' := by rintro rfl; revert hc; decide
    have key : parseI32 (c :: cs) = if (c :: cs) = [] ∨ ¬ (c :: cs).all Char.isDigit then none
        else if InI32 (1 * (Nat.ofDigitChars 10 (c :: cs) 0 : Int)) then some (1 * (Nat.ofDigitChars 10 (c :: cs) 0 : Int)) else none := by
      unfold parseI32
      split
      · rename_i heq; exact absurd (List.cons.inj heq).1 h1
      · rename_i heq; exact absurd (List.cons.inj heq).1 h2
      · rfl
    rw [key] at h
    generalize Nat.ofDigitChars 10 (c :: cs) 0 = w at *
    split at h
    · rename_i y hy
      have hx := Except.ok.inj h
      split_ifs at hy
      all_goals first
        | (have hw := Option.some.inj hy; omega)
        | cases hy
    · cases h

theorem parseSeg_cut {l : List Char} {s s' : Seg} (hf : InI32 s.m ∧ InI32 s.x0 ∧ InI32 s.y0 ∧ InI32 s.n) (hn : 0 ≤ s.n) (hl : l <+: segLine s)
    (h : parseSeg l = .ok s') : ∃ n', s' = { s with n := n' } ∧ 0 ≤ n' ∧ n' ≤ s.n := by
  have nm : ∀ {a : Int}, ',' ∉ showI32 a := not_mem_show (by decide) (by decide)
  unfold segLine at hl
  unfold parseSeg at h
  replace hl := cut_sep hl
  obtain h1 | ⟨l, rfl, hl⟩ := hl
  · rw [split_none (prefix_not_mem h1 nm)] at h
    simp only [List.mapM_cons, List.mapM_nil, bind, Except.bind, pure, Except.pure] at h
    cases hp : parseField l <;> rw [hp] at h <;> cases h
  rw [split_append nm] at h
  replace hl := cut_sep hl
  obtain h1 | ⟨l, rfl, hl⟩ := hl
  · rw [split_none (prefix_not_mem h1 nm)] at h
    simp only [List.mapM_cons, List.mapM_nil, bind, Except.bind, pure, Except.pure, parseField_show hf.1] at h
    cases hp : parseField l <;> rw [hp] at h <;> cases h
  rw [split_append nm] at h
  replace hl := cut_sep hl
  obtain h1 | ⟨l, rfl, hl⟩ := hl
  · rw [split_none (prefix_not_mem h1 nm)] at h
    simp only [List.mapM_cons, List.mapM_nil, bind, Except.bind, pure, Except.pure, parseField_show hf.1, parseField_show hf.2.1] at h
    cases hp : parseField l <;> rw [hp] at h <;> cases h
  rw [split_append nm, split_none (prefix_not_mem hl nm)] at h
  simp only [List.mapM_cons, List.mapM_nil, bind, Except.bind, pure, Except.pure, parseField_show hf.1, parseField_show hf.2.1,
    parseField_show hf.2.2.1] at h
  cases hp : parseField l with
  | error e => rw [hp] at h; cases h
  | ok x =>
    rw [hp] at h
    obtain rfl := Except.ok.inj h
    exact ⟨x, rfl, field_cut hn hl hp⟩

theorem segs_cut : ∀ {ss : List Seg} {c : List Char} {ss' : List Seg}, (∀ s ∈ ss, InI32 s.m ∧ InI32 s.x0 ∧ InI32 s.y0 ∧ InI32 s.n) →
    (∀ s ∈ ss, 0 ≤ s.n) → c <+: ss.flatMap (fun s => segLine s ++ ['\n']) → (fileLines c).mapM parseSeg = .ok ss' → CutSegs ss' ss := by
  intro ss
  induction ss with
  | nil =>
    intro c ss' _ _ hc h
    rw [List.flatMap_nil, List.prefix_nil] at hc
    subst hc
    have : fileLines [] = [] := by decide
    rw [this] at h
    obtain rfl := Except.ok.inj h
    exact .nil _
  | cons s ss ih =>
    intro c ss' hf hn hc h
    have e : (s :: ss).flatMap (fun s => segLine s ++ ['\n']) = segLine s ++ '\n' :: ss.flatMap (fun s => segLine s ++ ['\n']) := by
      simp [List.flatMap_cons]
    rw [e] at hc
    have k1 : '\n' ∉ segLine s := not_mem_segLine (by decide) (by decide) (by decide)
    have k2 : '\r' ∉ segLine s := not_mem_segLine (by decide) (by decide) (by decide)
    rcases cut_sep hc with h1 | ⟨c', rfl, h1⟩
    · rcases fileLines_one' (prefix_not_mem h1 k1) with h2 | h2
      · rw [h2] at h
        obtain rfl := Except.ok.inj h
        exact .nil _
      · rw [h2, List.mapM_cons, List.mapM_nil] at h
        cases hp : parseSeg c with
        | error e => rw [hp] at h; cases h
        | ok s' =>
          rw [hp] at h
          obtain rfl := Except.ok.inj h
          obtain ⟨n', rfl, n0, n1⟩ := parseSeg_cut (hf s (by simp)) (hn s (by simp)) h1 hp
          exact .part s n' ss n0 n1
    · rw [fileLines_cons k1 k2, List.mapM_cons, parseSeg_line (hf s (by simp)), ok_bind] at h
      obtain ⟨r, h2, h3⟩ := bind_ok_iff.1 h
      obtain rfl := Except.ok.inj h3
      exact .cons s (ih (fun u hu => hf u (by simp [hu])) (fun u hu => hn u (by simp [hu])) h1 h2)

/-- Whatever is left of the file, loading it panics or gives first segments of the index. -/
theorem load_cut {v v' : Vsri} {c : List Char} (hf : v.Fields) (hn : ∀ s ∈ v.segs, 0 ≤ s.n) (hc : c <+: flush v) (h : load c = .ok v') :
    CutSegs v'.segs v.segs ∧ (v'.segs ≠ [] → v'.minTs = v.minTs ∧ v'.maxTs = v.maxTs) := by
  have k1 : ∀ {a : Int}, '\n' ∉ showI32 a := not_mem_show (by decide) (by decide)
  have k2 : ∀ {a : Int}, '\r' ∉ showI32 a := not_mem_show (by decide) (by decide)
  unfold flush at hc
  unfold load at h
  replace hc := cut_sep hc
  obtain h1 | ⟨c1, rfl, hc⟩ := hc
  · rcases fileLines_one' (prefix_not_mem h1 k1) with h2 | h2 <;> rw [h2] at h
    · obtain rfl := Except.ok.inj h
      exact ⟨.nil _, fun h => absurd rfl h⟩
    · obtain ⟨a, _, h⟩ := bind_ok_iff.1 h
      obtain rfl := Except.ok.inj h
      exact ⟨.nil _, fun h => absurd rfl h⟩
  rw [fileLines_cons k1 k2] at h
  replace hc := cut_sep hc
  obtain h1 | ⟨c2, rfl, hc⟩ := hc
  · rcases fileLines_one' (prefix_not_mem h1 k1) with h2 | h2 <;> rw [h2] at h
    · obtain ⟨a, _, h⟩ := bind_ok_iff.1 h
      obtain rfl := Except.ok.inj h
      exact ⟨.nil _, fun h => absurd rfl h⟩
    · obtain ⟨a, _, h⟩ := bind_ok_iff.1 h
      obtain ⟨b, _, h⟩ := bind_ok_iff.1 h
      obtain rfl := Except.ok.inj h
      exact ⟨.nil _, fun h => absurd rfl h⟩
  rw [fileLines_cons k1 k2] at h
  dsimp only at h
  rw [parseField_show hf.1, ok_bind, parseField_show hf.2.1, ok_bind] at h
  obtain ⟨ss', h1, h2⟩ := bind_ok_iff.1 h
  obtain rfl := Except.ok.inj h2
  exact ⟨segs_cut hf.2.2 hn hc h1, fun _ => ⟨rfl, rfl⟩⟩

theorem mapM_prefix {α β : Type} {f : α → Except Panic β} : ∀ {l m : List α} {r : List β}, l <+: m → m.mapM f = .ok r →
    ∃ r', l.mapM f = .ok r' ∧ r' <+: r := by
  intro l
  induction l with
  | nil => intro m r _ _; exact ⟨[], rfl, List.nil_prefix⟩
  | cons a l ih =>
    intro m r hp h
    obtain ⟨t, rfl⟩ := hp
    rw [List.cons_append, List.mapM_cons] at h
    obtain ⟨b, h1, h⟩ := bind_ok_iff.1 h
    obtain ⟨r1, h2, h⟩ := bind_ok_iff.1 h
    obtain rfl := Except.ok.inj h
    obtain ⟨r', h3, h4⟩ := ih (List.prefix_append l t) h2
    refine ⟨b :: r', ?_, List.cons_prefix_cons.2 ⟨rfl, h4⟩⟩
    rw [List.mapM_cons, h1, ok_bind, h3]
    rfl

theorem CutSegs.times {p : Profile} {a b : List Seg} (h : CutSegs a b) : ∀ {ts : List (List Int)}, b.mapM (segTimes p) = .ok ts →
    ∃ ts', a.mapM (segTimes p) = .ok ts' ∧ ts'.flatten <+: ts.flatten := by
  induction h with
  | nil ss => intro ts _; exact ⟨[], rfl, List.nil_prefix⟩
  | part s n' ss h0 h1 =>
    intro ts h
    rw [List.mapM_cons] at h
    obtain ⟨t, h2, h⟩ := bind_ok_iff.1 h
    obtain ⟨r, h3, h⟩ := bind_ok_iff.1 h
    obtain rfl := Except.ok.inj h
    obtain ⟨r', h4, h5⟩ := mapM_prefix (l := List.range n'.toNat) (m := List.range s.n.toNat) (by
      have e : s.n.toNat = n'.toNat + (s.n.toNat - n'.toNat) := by omega
      rw [e, List.range_add]
      exact List.prefix_append _ _) h2
    refine ⟨[r'], ?_, ?_⟩
    · have : segTimes p { s with n := n' } = .ok r' := h4
      rw [List.mapM_cons, this]
      rfl
    · rw [List.flatten_cons, List.flatten_cons, List.flatten_nil, List.append_nil]
      exact h5.trans (List.prefix_append _ _)
  | cons s h ih =>
    intro ts hh
    rw [List.mapM_cons] at hh
    obtain ⟨t, h2, hh⟩ := bind_ok_iff.1 hh
    obtain ⟨r, h3, hh⟩ := bind_ok_iff.1 hh
    obtain rfl := Except.ok.inj hh
    obtain ⟨r', h4, h5⟩ := ih h3
    refine ⟨t :: r', ?_, ?_⟩
    · rw [List.mapM_cons, h2, ok_bind, h4]; rfl
    · rw [List.flatten_cons, List.flatten_cons]
      exact List.prefix_append_right_inj t |>.2 h5

theorem CutSegs.sample {p : Profile} {a b : List Seg} (h : CutSegs a b) (hb : ∀ s ∈ b, segEnd p s = .ok s.last ∧ 0 ≤ s.m ∧ InI32 s.m ∧ 0 ≤ s.y0 ∧ InI32 s.y0 ∧ InI32 s.last ∧ InI32 s.n ∧ 1 ≤ s.n)
    {y x : Int} : getSampleIn p y a = .ok (some x) → getSampleIn p y b = .ok (some x) := by
  induction h with
  | nil ss => intro h; cases h
  | part s n' ss h0 h1 =>
    intro h
    obtain ⟨e1, e2, e3, e4, e5, e6, e7, e8⟩ := hb s (by simp)
    rw [getSampleIn, e1, ok_bind]
    rw [getSampleIn] at h
    unfold Seg.last at e6
    unfold InI32 at e3 e5 e6 e7
    have hm : s.m * (n' - 1) ≤ s.m * (s.n - 1) := Int.mul_le_mul_of_nonneg_left (by omega) e2
    have hm2 : s.m * (-1) ≤ s.m * (n' - 1) := Int.mul_le_mul_of_nonneg_left (by omega) e2
    have e : segEnd p { s with n := n' } = .ok (s.y0 + s.m * (n' - 1)) := by
      unfold segEnd
      dsimp only
      rw [i32op_in (a := n' - 1) (by unfold InI32; omega), ok_bind, i32op_in (a := s.m * (n' - 1)) (by unfold InI32; omega), ok_bind,
        i32op_in (by unfold InI32; omega)]
    rw [e, ok_bind] at h
    dsimp only at h
    split_ifs at h with hc
    · rw [if_pos (by unfold Seg.last; omega)]
      exact h
    · cases h
  | cons s h ih =>
    intro hh
    rw [getSampleIn] at hh ⊢
    obtain ⟨e, h1, hh⟩ := bind_ok_iff.1 hh
    rw [h1, ok_bind]
    split_ifs at hh ⊢ with hc
    · exact hh
    · exact ih (fun u hu => hb u (by simp [hu])) hh

theorem reach_segs {p : Profile} {v : Vsri} {h : List Int} (I : Inv v h) : ∀ s ∈ v.segs, segEnd p s = .ok s.last ∧ 0 ≤ s.m ∧ InI32 s.m ∧ 0 ≤ s.y0 ∧ InI32 s.y0 ∧
    InI32 s.last ∧ InI32 s.n ∧ 1 ≤ s.n ∧ 0 ≤ s.x0 ∧ s.x0 + s.n ≤ h.length := by
  intro s hs
  have hf := (Inv_fields I).2.2 s hs
  obtain ⟨g, blk, g', hg, ok⟩ := Desc_mem I.desc hs
  rw [Int.zero_add] at ok
  have hpos := ok.pos
  have hfew := I.hist.few
  have hlen : h.length = g.length + (blk.length + g'.length) := by rw [hg]; simp
  have hr : ∀ y ∈ blk, 0 ≤ y ∧ y < 2147483648 := fun y hy => I.hist.range y (by rw [hg]; simp [hy])
  have h0 := I.hist.range s.y0 (by rw [hg, ← ok.first]; simp)
  have h1 := ok.last_le
  have h2 := hr _ (List.getElem_mem (l := blk) (n := blk.length - 1) (by omega))
  have hx := ok.x0
  have hn := ok.n
  refine ⟨segEnd_ok ok hr (by omega), ok.m_nonneg, hf.1, h0.1, hf.2.2.1, ?_, hf.2.2.2, by omega, by omega, by omega⟩
  unfold InI32
  omega

/-- C70: an index was built from a strictly increasing history and flushed, but only the first characters `c` of the file reached the disk.  If `load` accepts
them, the timestamps it lists are the first ones of the original index, the sample count does not grow, and a lookup that finds a sample finds the same one as in the
original.  That a cut file is always refused is false, see `C70_refuted_lines` and `C70_refuted_digit`. -/
theorem C70_cut (p : Profile) (h : List Int) (H : StrictHistory h) (v : Vsri) (rs : List Bool) (hr : Vsri.run p .new h = .ok (v, rs))
    (c : List Char) (hc : c <+: flush v) (v' : Vsri) (hl : load c = .ok v') :
    (∃ ts ts', v.allTimestamps p = .ok ts ∧ v'.allTimestamps p = .ok ts' ∧ ts' <+: ts) ∧
    (∃ k, v'.sampleCount p = .ok k ∧ 0 ≤ k ∧ k ≤ h.length) ∧
    (∀ t x, v'.getSample p t = .ok (some x) → v.getSample p t = .ok (some x)) ∧
    (v'.segs ≠ [] → v'.min = v.min ∧ v'.max = v.max) := by
  obtain ⟨I, -⟩ := run_inv H hr
  have hs := reach_segs (p := p) I
  have hfew := H.few
  obtain ⟨h1, h2⟩ := load_cut (Inv_fields I) (fun s hm => by have := hs s hm; omega) hc hl
  refine ⟨?_, ?_, fun t x => h1.sample fun s hm => ?_, h2⟩
  · obtain ⟨ts, t1, _⟩ := C43_timestamps p h H v rs hr
    have t1' := t1
    unfold allTimestamps at t1
    obtain ⟨tt, t2, t3⟩ := bind_ok_iff.1 t1
    obtain rfl := Except.ok.inj t3
    obtain ⟨tt', t4, t5⟩ := h1.times t2
    refine ⟨_, tt'.flatten, t1', ?_, t5⟩
    unfold allTimestamps
    rw [t4]; rfl
  · unfold sampleCount
    have hcur : v'.segs = [] ∨ v'.current ∈ v'.segs := by
      unfold Vsri.current
      cases v'.segs with
      | nil => exact .inl rfl
      | cons a l => right; rw [List.getLastD_cons]; rw [List.getLastD_eq_getLast?]
                    cases hl : l.getLast? with
                    | none => simp
                    | some z => simp [List.mem_of_getLast? hl]
    rcases hcur with e | e
    · have : v'.current = ⟨0, 0, 0, 0⟩ := by unfold Vsri.current; rw [e]; rfl
      rw [this]
      exact ⟨0, by rw [i32op_in (by decide)]; rfl, le_refl _, by omega⟩
    · obtain ⟨s, hm, n', e1, e2⟩ := h1.mem _ e
      have := hs s hm
      rw [e1]
      dsimp only
      have k0 : 0 ≤ n' ∧ n' ≤ s.n := by omega
      exact ⟨n' + s.x0, i32op_in (by unfold InI32; omega), by omega, by omega⟩
  · obtain ⟨a1, a2, a3, a4, a5, a6, a7, a8, -⟩ := hs s hm
    exact ⟨a1, a2, a3, a4, a5, a6, a7, a8⟩

theorem text_prefix : ∀ {cs : List Char} {bs : Bytes}, (∀ c ∈ cs, c.toNat < 128) → bs <+: textBytes cs → ∃ c, bs = textBytes c ∧ c <+: cs := by
  intro cs
  induction cs with
  | nil => intro bs _ h; exact ⟨[], List.prefix_nil.1 h, List.prefix_rfl⟩
  | cons c cs ih =>
    intro bs hc h
    rw [textBytes_cons, enc_ascii (hc c (by simp)), List.singleton_append] at h
    cases bs with
    | nil => exact ⟨[], rfl, List.nil_prefix⟩
    | cons b bs =>
      obtain ⟨rfl, h2⟩ := List.cons_prefix_cons.1 h
      obtain ⟨d, rfl, h4⟩ := ih (fun x hx => hc x (by simp [hx])) h2
      refine ⟨c :: d, ?_, List.cons_prefix_cons.2 ⟨rfl, h4⟩⟩
      rw [textBytes_cons, enc_ascii (hc c (by simp))]; rfl

theorem flush_ascii (v : Vsri) : ∀ c ∈ flush v, c.toNat < 128 := by
  intro c hc
  unfold flush at hc
  have num : NumChar c → c.toNat < 128 := fun h => by have := h.range; omega
  simp only [List.mem_append, List.mem_cons, List.mem_flatMap] at hc
  rcases hc with h | rfl | h | rfl | ⟨s, -, h | rfl | h⟩
  · exact num (show_num _ _ h)
  · decide
  · exact num (show_num _ _ h)
  · decide
  · rcases segLine_chars s c h with h | rfl
    · exact num h
    · decide
  · decide
  · simp at h

/-- C70 for the bytes of the file: cut anywhere, it is never reported as unreadable; `load` panics or gives an index as in `C70_cut`. -/
theorem C70_bytes (p : Profile) (h : List Int) (H : StrictHistory h) (v : Vsri) (rs : List Bool) (hr : Vsri.run p .new h = .ok (v, rs))
    (bs : Bytes) (hc : bs <+: textBytes (flush v)) :
    loadFile bs ≠ .ok none ∧ ∀ v', loadFile bs = .ok (some v') →
    (∃ ts ts', v.allTimestamps p = .ok ts ∧ v'.allTimestamps p = .ok ts' ∧ ts' <+: ts) ∧
    (∃ k, v'.sampleCount p = .ok k ∧ 0 ≤ k ∧ k ≤ h.length) ∧
    (∀ t x, v'.getSample p t = .ok (some x) → v.getSample p t = .ok (some x)) ∧
    (v'.segs ≠ [] → v'.min = v.min ∧ v'.max = v.max) := by
  obtain ⟨c, rfl, h2⟩ := text_prefix (flush_ascii v) hc
  rw [loadFile_text]
  refine ⟨fun e => ?_, fun v' e => ?_⟩
  · cases hl : load c with
    | error x => rw [hl] at e; cases e
    | ok x => rw [hl] at e; cases e
  · refine C70_cut p h H v rs hr c h2 v' ?_
    cases hl : load c with
    | error x => rw [hl] at e; cases e
    | ok x => rw [hl] at e; exact congrArg _ (Option.some.inj (Except.ok.inj e))

/-- C70 refuted: cut at the end of any segment line, the file is accepted, with the original extremes, and the later segments are lost. -/
theorem C70_refuted_lines (v : Vsri) (hf : v.Fields) (k : Nat) :
    flush { v with segs := v.segs.take k } <+: flush v ∧ load (flush { v with segs := v.segs.take k }) = .ok { v with segs := v.segs.take k } := by
  refine ⟨?_, C49_flush_load _ ⟨hf.1, hf.2.1, fun s hs => hf.2.2 s (List.mem_of_mem_take hs)⟩⟩
  unfold flush
  refine ⟨(v.segs.drop k).flatMap fun s => segLine s ++ ['\n'], ?_⟩
  have e : (v.segs.take k).flatMap (fun s => segLine s ++ ['\n']) ++ (v.segs.drop k).flatMap (fun s => segLine s ++ ['\n']) =
      v.segs.flatMap fun s => segLine s ++ ['\n'] := by rw [← List.flatMap_append, List.take_append_drop]
  simpa using e

/-- C70 refuted, within a number: the index of 0, 10, ..., 110 cut two characters before its end is accepted as an index of one sample, still claiming the maximum 110; and cut in the first
line it is accepted as an empty index. -/
theorem C70_refuted_digit : okAnd (Vsri.run .debug .new (regular 5 10 12)) (fun q =>
    load ((flush q.1).dropLast.dropLast) = .ok { minTs := 5, maxTs := 115, segs := [⟨10, 0, 5, 1⟩] } ∧
    load ((flush q.1).take 1) = .ok { minTs := 5, maxTs := 0, segs := [] } ∧ q.1.sampleCount .debug = .ok 12) = true := by decide +kernel

/-- The missing of the final line feed alone is harmless. -/
theorem C70_newline (v : Vsri) (hf : v.Fields) (c : List Char) (hc : c ++ ['\n'] = flush v) : load c = .ok v := by
  by_cases he : v.segs = []
  · have e : c = showI32 v.minTs ++ '\n' :: showI32 v.maxTs := by
      unfold flush at hc
      rw [he, List.flatMap_nil] at hc
      have : showI32 v.minTs ++ '\n' :: (showI32 v.maxTs ++ ['\n']) = (showI32 v.minTs ++ '\n' :: showI32 v.maxTs) ++ ['\n'] := by simp
      rw [this] at hc
      exact List.append_cancel_right hc
    have k1 : ∀ {a : Int}, '\n' ∉ showI32 a := not_mem_show (by decide) (by decide)
    have k2 : ∀ {a : Int}, '\r' ∉ showI32 a := not_mem_show (by decide) (by decide)
    have hl : fileLines (showI32 v.maxTs) = [showI32 v.maxTs] := by
      rw [fileLines_one k1, if_neg (show_ne_nil _)]
    unfold load
    rw [e, fileLines_cons k1 k2, hl]
    dsimp only
    rw [parseField_show hf.1, ok_bind, parseField_show hf.2.1, ok_bind]
    cases v; simp only at he; subst he; rfl
  · obtain ⟨ss, s, hs⟩ : ∃ ss s, v.segs = ss ++ [s] := ⟨_, _, (List.dropLast_concat_getLast he).symm⟩
    have e : c = showI32 v.minTs ++ '\n' :: (showI32 v.maxTs ++ '\n' :: ((ss.flatMap fun s => segLine s ++ ['\n']) ++ segLine s)) := by
      unfold flush at hc
      rw [hs] at hc
      have : showI32 v.minTs ++ '\n' :: (showI32 v.maxTs ++ '\n' :: ((ss ++ [s]).flatMap fun s => segLine s ++ ['\n'])) =
        (showI32 v.minTs ++ '\n' :: (showI32 v.maxTs ++ '\n' :: ((ss.flatMap fun s => segLine s ++ ['\n']) ++ segLine s))) ++ ['\n'] := by
          simp [List.flatMap_append]
      rw [this] at hc
      exact List.append_cancel_right hc
    have k1 : ∀ {a : Int}, '\n' ∉ showI32 a := not_mem_show (by decide) (by decide)
    have k2 : ∀ {a : Int}, '\r' ∉ showI32 a := not_mem_show (by decide) (by decide)
    have j1 : ∀ {s : Seg}, '\n' ∉ segLine s := not_mem_segLine (by decide) (by decide) (by decide)
    have j2 : ∀ {s : Seg}, '\r' ∉ segLine s := not_mem_segLine (by decide) (by decide) (by decide)
    have hl : ∀ ss : List Seg, fileLines ((ss.flatMap fun s => segLine s ++ ['\n']) ++ segLine s) = (ss ++ [s]).map segLine := by
      intro ss
      induction ss with
      | nil =>
        rw [List.flatMap_nil, List.nil_append]
        rw [fileLines_one j1, if_neg (by simp [segLine])]; rfl
      | cons a ss ih =>
        have e : (a :: ss).flatMap (fun s => segLine s ++ ['\n']) ++ segLine s = segLine a ++ '\n' :: (ss.flatMap (fun s => segLine s ++ ['\n']) ++ segLine s) := by
          simp [List.flatMap_cons]
        rw [e, fileLines_cons j1 j2, ih]; rfl
    unfold load
    rw [e, fileLines_cons k1 k2, fileLines_cons k1 k2, hl, ← hs]
    dsimp only
    rw [parseField_show hf.1, ok_bind, parseField_show hf.2.1, ok_bind, List.mapM_map]
    have : (v.segs.mapM (parseSeg ∘ segLine)) = .ok (v.segs.map id) := mapM_ok fun s hs => parseSeg_line (hf.2.2 s hs)
    rw [this, List.map_id]; rfl

/-- C70_cut on a real history: 0, 10, 20, 35, 50 cut inside the last line after its third comma is refused, at the line end it loads as a shorter index. -/
example : okAnd (Vsri.run .debug .new [0, 10, 20, 40, 55]) (fun q =>
    String.ofList (flush q.1) = "0\n55\n10,0,0,3\n15,3,40,2\n" ∧ load "0\n55\n10,0,0,3\n15,3,40,".toList = .error .unwrap ∧
    load "0\n55\n10,0,0,3\n".toList = .ok { minTs := 0, maxTs := 55, segs := [⟨10, 0, 0, 3⟩] }) = true := by decide +kernel

end Atsc
