import Verif.Props.VsriNext
import Verif.Props.VsriReindex
/- C76, C84: what `get_this_or_previous` returns at every time. -/
namespace Atsc
open Vsri

/-- The last segment ends at the last reported timestamp, and its last sample is the last one. -/
theorem last_segment {v : Vsri} {h ts : List Int} (I : Inv v h) (T : Times v h ts) {l : Seg} (hl : v.segs.getLast? = some l) {last : Int}
    (hlast : ts.getLast? = some last) : l ∈ v.segs ∧ l.last = last ∧ l.x0 + l.n = h.length ∧ 0 ≤ l.m ∧ 1 ≤ l.n ∧ (l.n ≠ 1 → 0 < l.m) := by
  obtain ⟨ss, hss⟩ := List.getLast?_eq_some_iff.1 hl
  have hmem : l ∈ v.segs := by rw [hss]; simp
  have d := I.desc
  rw [hss] at d
  obtain ⟨q1, q2, hq, d1, d2⟩ := Desc_append.1 d
  rw [Int.zero_add] at d2
  have ok := Desc_single.1 d2
  have hx := ok.x0
  have hn := ok.n
  have hp := ok.pos
  have hlen : h.length = q1.length + q2.length := by rw [hq]; simp
  have htl := T.len
  have hlt : ts.length - 1 < ts.length := by omega
  have f := T.formula (ts.length - 1) hlt l hmem (by unfold Seg.Has; omega)
  have hlast' : ts[ts.length - 1] = last := by
    have : ts ≠ [] := by intro e; rw [e] at hlast; cases hlast
    rw [List.getLast?_eq_some_getLast this] at hlast
    have := Option.some.inj hlast
    rw [← this, List.getLast_eq_getElem]
  have hm : l.n ≠ 1 → 0 < l.m := by
    intro h1
    rcases ok.kind with ⟨k1, _⟩ | ⟨_, k2⟩
    · exfalso; apply h1; rw [hn, k1]; rfl
    · exact k2
  have hm0 : 0 ≤ l.m := by
    rcases ok.kind with ⟨_, k2⟩ | ⟨_, k2⟩ <;> omega
  refine ⟨hmem, ?_, by omega, hm0, by omega, hm⟩
  rw [← hlast', f]
  unfold Seg.last
  congr 2
  omega

/-- **C76, this or previous, exactly, at every time.** Before the first point there is none; from there to before the last reported timestamp it is the last sample
whose reported timestamp is not after `t`; at the last reported timestamp it is the last sample, or a panic if that sample is alone in its segment; between
it and the real last point there is none; and from the real last point on (if that is not the last reported timestamp) it is the number of samples. -/
theorem C76_previous_exact (p : Profile) (h : List Int) (H : DayHistory h) (v : Vsri) (rs : List Bool) (hr : Vsri.run p .new h = .ok (v, rs))
    (ts : List Int) (hts : v.allTimestamps p = .ok ts) (last : Int) (hlast : ts.getLast? = some last) (l : Seg) (hl : v.segs.getLast? = some l) (t : Int) :
    (t < v.min → v.thisOrPrevious p t = .ok none) ∧
    (v.min ≤ t → t < last → ∃ k : Nat, v.thisOrPrevious p t = .ok (some (k : Int)) ∧ LastNotAfter ts t k) ∧
    (t = last → l.n ≠ 1 → v.thisOrPrevious p t = .ok (some ((h.length - 1 : Nat) : Int)) ∧ LastNotAfter ts t (h.length - 1)) ∧
    (t = last → l.n = 1 → v.thisOrPrevious p t = .error .divZero) ∧
    (last < t → t < v.max → v.thisOrPrevious p t = .ok none) ∧
    (last < t → v.max ≤ t → v.thisOrPrevious p t = .ok (some (h.length : Int))) := by
  obtain ⟨I, -⟩ := run_inv H.strict hr
  obtain ⟨ts', hts', T⟩ := times_of (p := p) I
  rw [hts] at hts'
  obtain rfl := Except.ok.inj hts'
  obtain ⟨hlm, hle, hlx, hm0, hn1, hmp⟩ := last_segment I T hl hlast
  have htl := T.len
  have hmono := times_lt I T
  have htne : ts ≠ [] := by intro e; rw [e] at hlast; cases hlast
  have hpos : 0 < ts.length := List.length_pos_of_ne_nil htne
  have hne : h ≠ [] := by rintro rfl; rw [List.length_nil] at htl; omega
  have hlast' : ts[ts.length - 1] = last := by
    rw [List.getLast?_eq_some_getLast htne] at hlast
    have := Option.some.inj hlast
    rw [← this, List.getLast_eq_getElem]
  have hall : ∀ y ∈ ts, y ≤ last := by
    intro y hy
    obtain ⟨j, hj, rfl⟩ := List.getElem_of_mem hy
    rcases Nat.lt_or_ge j (ts.length - 1) with c | c
    · have := hmono j (ts.length - 1) hj (by omega) c; omega
    · have : j = ts.length - 1 := by omega
      subst this; omega
  have hy0 : ∀ s ∈ v.segs, v.min ≤ s.y0 := by
    intro s hs
    have e : v.min = h[0]'(by omega) := by
      unfold Vsri.min; rw [I.minTs]
      cases h with
      | nil => exact absurd rfl hne
      | cons a l => rfl
    obtain ⟨g, b, g', hg, ok⟩ := Desc_mem I.desc hs
    have hmem : s.y0 ∈ h := by
      rw [hg]
      exact List.mem_append_right _ (List.mem_append_left _ (List.mem_of_mem_head? (by rw [ok.head]; rfl)))
    obtain ⟨j, hj, ej⟩ := List.getElem_of_mem hmem
    rw [e, ← ej]
    rcases Nat.eq_zero_or_pos j with rfl | c
    · exact le_refl _
    · exact le_of_lt (List.pairwise_iff_getElem.1 H.increasing _ _ _ _ c)
  have hspan_le : ∀ s ∈ v.segs, s.last ≤ last := fun s hs => hall _ (last_reported I T hs)
  have L := C44_lookup p h H v rs hr t
  have O := C47_outside p h H.strict v rs hr t
  obtain ⟨r, hprev⟩ := getPrevious_ok (p := p) I t
  refine ⟨fun ht => ?_, fun hmin ht => ?_, fun ht hn => ⟨?_, ?_⟩, fun ht hn => ?_, fun ht hmax => ?_, fun ht hmax => ?_⟩
  · unfold thisOrPrevious
    rw [L.2.2 fun s hs hsp => by have := hy0 s hs; have := hsp.1; omega, (O.1 ht).2]
    rfl
  · exact C76_previous_inside p h H v rs hr ts hts t hmin ⟨last, List.mem_of_getLast? hlast, ht⟩
  · have hm := hmp hn
    have hsp : l.Spans t := by
      refine ⟨?_, by omega⟩
      rw [ht, ← hle]; unfold Seg.last
      have : 0 ≤ l.m * (l.n - 1) := mul_nonneg hm0 (by omega)
      omega
    have hq : (t - l.y0) / l.m = l.n - 1 := by
      rw [ht, ← hle]; unfold Seg.last
      rw [add_sub_cancel_left, Int.mul_ediv_cancel_left _ (by omega)]
    unfold thisOrPrevious
    rw [L.1 l hlm hsp hn, hprev, hq]
    show Except.ok (some (l.x0 + (l.n - 1))) = _
    congr 2
    omega
  · refine ⟨by omega, ?_, fun j hj hk => by omega⟩
    have e : ts[h.length - 1]'(by omega) = ts[ts.length - 1] := by congr 1; omega
    rw [e, hlast']; omega
  · have hsp : l.Spans t := by
      refine ⟨?_, by omega⟩
      rw [ht, ← hle]; unfold Seg.last
      rw [hn]; omega
    unfold thisOrPrevious
    rw [L.2.1 l hlm hsp hn]
    rfl
  · refine C76_refuted_tail_all p h H v rs hr ts hts t ?_ (fun y hy => by have := hall y hy; omega) hmax
    have := hy0 l hlm
    have : l.y0 ≤ l.last := by
      unfold Seg.last
      have : 0 ≤ l.m * (l.n - 1) := mul_nonneg hm0 (by omega)
      omega
    omega
  · unfold thisOrPrevious
    rw [L.2.2 fun s hs hsp => by have := hspan_le s hs; have := hsp.2; omega, (O.2 hne hmax).2]
    rfl

/-- **C84 for `get_this_or_previous`, at all times**: a later time never gives an earlier sample, and what is given is at most the number of samples. -/
theorem C84_previous (p : Profile) (h : List Int) (H : DayHistory h) (hne : h ≠ []) (v : Vsri) (rs : List Bool) (hr : Vsri.run p .new h = .ok (v, rs))
    (t t' i i' : Int) (ht : t ≤ t') (h1 : v.thisOrPrevious p t = .ok (some i)) (h2 : v.thisOrPrevious p t' = .ok (some i')) :
    0 ≤ i ∧ i ≤ i' ∧ i' ≤ h.length := by
  obtain ⟨I, -⟩ := run_inv H.strict hr
  obtain ⟨ts, hts, T⟩ := times_of (p := p) I
  have htl := T.len
  have hmono := times_lt I T
  have hpos : 0 < h.length := List.length_pos_of_ne_nil hne
  have htne : ts ≠ [] := by rintro rfl; rw [List.length_nil] at htl; omega
  obtain ⟨last, hlast⟩ : ∃ last, ts.getLast? = some last := ⟨_, List.getLast?_eq_some_getLast htne⟩
  obtain ⟨s0, hs0, -⟩ := T.cover 0 (by omega)
  have hsne : v.segs ≠ [] := List.ne_nil_of_mem hs0
  obtain ⟨l, hl⟩ : ∃ l, v.segs.getLast? = some l := ⟨_, List.getLast?_eq_some_getLast hsne⟩
  have X : ∀ u j, v.thisOrPrevious p u = .ok (some j) →
      (∃ k : Nat, j = k ∧ LastNotAfter ts u k ∧ u ≤ last) ∨ (j = h.length ∧ last < u) := by
    intro u j hu
    obtain ⟨a1, a2, a3, a4, a5, a6⟩ := C76_previous_exact p h H v rs hr ts hts last hlast l hl u
    by_cases c1 : u < v.min
    · rw [a1 c1] at hu; cases hu
    by_cases c2 : u < last
    · obtain ⟨k, k1, k2⟩ := a2 (by omega) c2
      rw [k1] at hu; cases hu
      exact Or.inl ⟨k, rfl, k2, by omega⟩
    by_cases c3 : u = last
    · by_cases c4 : l.n = 1
      · rw [a4 c3 c4] at hu; cases hu
      · obtain ⟨k1, k2⟩ := a3 c3 c4
        rw [k1] at hu; cases hu
        exact Or.inl ⟨_, rfl, k2, by omega⟩
    · by_cases c5 : u < v.max
      · rw [a5 (by omega) c5] at hu; cases hu
      · rw [a6 (by omega) (by omega)] at hu; cases hu
        exact Or.inr ⟨rfl, by omega⟩
  rcases X t i h1 with ⟨k, rfl, ⟨g1, g2, g3⟩, g4⟩ | ⟨rfl, g⟩ <;> rcases X t' i' h2 with ⟨k', rfl, ⟨f1, f2, f3⟩, f4⟩ | ⟨rfl, f⟩
  · refine ⟨by omega, ?_, by omega⟩
    by_contra hc
    have := f3 k g1 (by omega)
    omega
  · exact ⟨by omega, by omega, by omega⟩
  · omega
  · exact ⟨by omega, by omega, by omega⟩

/-- All the cases on a concrete index: the history 0, 10, 25 reports 0, 10, 20. -/
example (p : Profile) : okAnd (Vsri.run p .new [0, 10, 25]) (fun q => q.1.allTimestamps p = .ok [0, 10, 20] ∧
    q.1.thisOrPrevious p (-1) = .ok none ∧ q.1.thisOrPrevious p 12 = .ok (some 1) ∧ q.1.thisOrPrevious p 20 = .ok (some 2) ∧
    q.1.thisOrPrevious p 22 = .ok none ∧ q.1.thisOrPrevious p 25 = .ok (some 3)) = true := by cases p <;> decide

end Atsc
