import Verif.Props.VsriNear
/- C44 and C76: exactly which points are found, and what happens after the last reported timestamp. -/
namespace Atsc
open Vsri

/-- A time outside the span of the segment holding point `i` but at point `i` is in no segment's span. -/
theorem late_not_spanned {v : Vsri} {h : List Int} (I : Inv v h) {i : Nat} (hi : i < h.length) {s : Seg} (hs : s ∈ v.segs) (hh : s.Has i)
    (hlate : s.last < h[i]) : ∀ u ∈ v.segs, ¬ u.Spans h[i] := by
  intro u hu hsp
  obtain ⟨g, blk, g', hg, ok⟩ := Desc_mem I.desc hs
  obtain ⟨k, bk, k', hk, oku⟩ := Desc_mem I.desc hu
  rw [Int.zero_add] at ok oku
  unfold Seg.Has at hh
  rw [ok.x0, ok.n] at hh
  obtain ⟨h1, h2⟩ := hsp
  have l2 := oku.last_le.2
  have hpos := oku.pos
  have inc := List.pairwise_iff_getElem.1 I.hist.increasing
  -- the first and the last point of `u`
  have e0 : h[k.length]'(by rw [hk]; simp; omega) = u.y0 := by
    rw [← oku.first]; simp [hk, List.getElem_append_left hpos]
  have e1 : h[k.length + (bk.length - 1)]'(by rw [hk]; simp; omega) = bk[bk.length - 1]'(by omega) := by
    simp only [hk]
    rw [List.getElem_append_right (by omega), List.getElem_append_left (by omega)]
    congr 1; omega
  by_cases c1 : i < k.length
  · have := inc i k.length hi (by rw [hk]; simp; omega) c1
    omega
  · by_cases c2 : k.length + (bk.length - 1) < i
    · have := inc _ i (by rw [hk]; simp; omega) hi c2
      omega
    · -- then `u` is `s`
      have hhu : u.Has i := by unfold Seg.Has; rw [oku.x0, oku.n]; omega
      have hhs : s.Has i := by unfold Seg.Has; rw [ok.x0, ok.n]; omega
      obtain rfl := Desc_has_unique I.desc s hs u hu hhs hhu
      omega

/-- C44, exactly: point number `i` of a day is found as sample `i` if and only if its segment has several samples and the segment's line reaches it; if
the segment has one sample the lookup panics, otherwise a late point is reported as not there. -/
theorem C44_exact (p : Profile) (h : List Int) (H : DayHistory h) (v : Vsri) (rs : List Bool) (hr : Vsri.run p .new h = .ok (v, rs))
    (i : Nat) (hi : i < h.length) (s : Seg) (hs : s ∈ v.segs) (hh : s.Has i) :
    (v.getSample p h[i] = .ok (some (i : Int)) ↔ s.n ≠ 1 ∧ h[i] ≤ s.last) ∧
    (v.getSample p h[i] = .error .divZero ↔ s.n = 1) ∧
    (v.getSample p h[i] = .ok none ↔ s.n ≠ 1 ∧ s.last < h[i]) := by
  obtain ⟨I, -⟩ := run_inv H.strict hr
  have hl := C44_lookup p h H v rs hr h[i]
  by_cases hn : s.n = 1
  · have hsp : s.Spans h[i] := by
      obtain ⟨g, blk, g', hg, ok⟩ := Desc_mem I.desc hs
      rw [Int.zero_add] at ok
      unfold Seg.Has at hh
      rw [ok.x0, ok.n] at hh
      have hb : blk.length = 1 := by have := ok.n; omega
      have hig : i = g.length := by omega
      subst hig
      have e0 : h[g.length] = s.y0 := by
        rw [← ok.first]; simp [hg, List.getElem_append_left ok.pos]
      rw [e0]
      exact ⟨le_refl _, ok.last_le.1⟩
    rw [hl.2.1 s hs hsp hn]
    simp [hn]
  · by_cases hlate : h[i] ≤ s.last
    · rw [C44_points p h H v rs hr i hi s hs hh hn hlate]
      simp [hn, hlate]
    · rw [hl.2.2 (late_not_spanned I hi hs hh (by omega))]
      simp [hn, hlate]; omega

/-- The end of every segment's line is a reported timestamp. -/
theorem last_reported {v : Vsri} {h ts : List Int} (I : Inv v h) (T : Times v h ts) {s : Seg} (hs : s ∈ v.segs) : s.last ∈ ts := by
  obtain ⟨g, blk, g', hg, ok⟩ := Desc_mem I.desc hs
  rw [Int.zero_add] at ok
  have hp := ok.pos
  have hl := T.len
  have hi : g.length + (blk.length - 1) < ts.length := by rw [hl, hg]; simp; omega
  have := T.formula (g.length + (blk.length - 1)) hi s hs (by unfold Seg.Has; rw [ok.x0, ok.n]; push_cast; omega)
  have e : s.last = ts[g.length + (blk.length - 1)] := by
    rw [this]; unfold Seg.last; rw [ok.n, ok.x0]; congr 2; omega
  rw [e]; exact List.getElem_mem hi

/-- C76 refuted, in every day history: after the last point "this or previous" is the number of samples, one past the last sample. -/
theorem C76_refuted_after_all (p : Profile) (h : List Int) (H : DayHistory h) (hne : h ≠ []) (v : Vsri) (rs : List Bool)
    (hr : Vsri.run p .new h = .ok (v, rs)) (t : Int) (ht : v.max < t) : v.thisOrPrevious p t = .ok (some (h.length : Int)) := by
  obtain ⟨I, -⟩ := run_inv H.strict hr
  obtain ⟨ts, hts, T⟩ := times_of (p := p) I
  have hno : ∀ s ∈ v.segs, ¬ s.Spans t := by
    intro s hs hsp
    have hm := last_reported I T hs
    obtain ⟨j, hj, ej⟩ := List.getElem_of_mem hm
    have h1 := T.le j hj (by have := T.len; omega)
    have h2 : h[j]'(by have := T.len; omega) ≤ v.max := by
      unfold Vsri.max
      rw [I.maxTs, List.getLastD_eq_getLast?, List.getLast?_eq_some_getLast hne]
      show _ ≤ h.getLast hne
      rw [List.getLast_eq_getElem hne]
      have hlen := T.len
      rcases Nat.lt_or_ge j (h.length - 1) with c | c
      · exact le_of_lt (List.pairwise_iff_getElem.1 H.increasing _ _ _ _ c)
      · have : j = h.length - 1 := by omega
        subst this; exact le_refl _
    have := hsp.2
    omega
  unfold thisOrPrevious
  rw [(C44_lookup p h H v rs hr t).2.2 hno, ((C47_outside p h H.strict v rs hr t).2 hne (by omega)).2]
  rfl

/-- C76 refuted, in every day history: between the last reported timestamp and the real last point there is no "previous" sample. -/
theorem C76_refuted_tail_all (p : Profile) (h : List Int) (H : DayHistory h) (v : Vsri) (rs : List Bool)
    (hr : Vsri.run p .new h = .ok (v, rs)) (ts : List Int) (hts : v.allTimestamps p = .ok ts) (t : Int) (hmin : v.min ≤ t) (hafter : ∀ y ∈ ts, y < t)
    (ht : t < v.max) : v.thisOrPrevious p t = .ok none := by
  obtain ⟨I, -⟩ := run_inv H.strict hr
  obtain ⟨ts', hts', T⟩ := times_of (p := p) I
  rw [hts] at hts'
  obtain rfl := Except.ok.inj hts'
  have hlt : ∀ s ∈ v.segs, s.last < t := fun s hs => hafter _ (last_reported I T hs)
  have hno : ∀ s ∈ v.segs, ¬ s.Spans t := fun s hs hsp => by have := hlt s hs; have := hsp.2; omega
  have hy : ∀ s ∈ v.segs, s.y0 < t := by
    intro s hs
    obtain ⟨g, blk, g', hg, ok⟩ := Desc_mem I.desc hs
    have := ok.last_le.1
    have := hlt s hs
    omega
  have hprev : ∀ segs : List Seg, (∀ s ∈ segs, s.y0 < t) → prevIn p t segs = .ok none := by
    intro segs
    induction segs with
    | nil => intro _; rfl
    | cons a as ih =>
      intro hh
      unfold prevIn
      rw [if_neg (by have := hh a (by simp); omega)]
      exact ih fun s hs => hh s (by simp [hs])
  unfold thisOrPrevious
  rw [(C44_lookup p h H v rs hr t).2.2 hno]
  unfold getPrevious
  rw [if_neg (by omega), if_neg (by omega), hprev _ hy]
  rfl

/-- Both ends of `C44_exact` occur: 0, 10, 25 is one segment, whose line reaches only 20. -/
example (p : Profile) : okAnd (Vsri.run p .new [0, 10, 25]) (fun q => q.1.segs = [⟨10, 0, 0, 3⟩] ∧ q.1.min ≤ 22 ∧ 22 < q.1.max ∧
    q.1.allTimestamps p = .ok [0, 10, 20]) = true := by cases p <;> decide

end Atsc
