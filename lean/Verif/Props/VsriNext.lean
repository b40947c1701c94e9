import Verif.Props.VsriExact
/- C47: what the gap lookups return at every time. -/
namespace Atsc
open Vsri

theorem nextIn_none {t : Int} : ∀ {l : List Seg}, (∀ s ∈ l, s.y0 < t) → nextIn t l = none := by
  intro l
  induction l with
  | nil => intro _; rfl
  | cons s l ih =>
    intro h
    rw [nextIn, if_neg (by have := h s (by simp); omega)]
    exact ih fun u hu => h u (by simp [hu])

theorem prevIn_none {p : Profile} {t : Int} : ∀ {l : List Seg}, (∀ s ∈ l, s.y0 ≤ t) → prevIn p t l = .ok none := by
  intro l
  induction l with
  | nil => intro _; rfl
  | cons s l ih =>
    intro h
    rw [prevIn, if_neg (by have := h s (by simp); omega)]
    exact ih fun u hu => h u (by simp [hu])

/-- Segments stand in time order and are numbered in order. -/
theorem Desc_order : ∀ {segs : List Seg} {x : Int} {h : List Int}, Desc x segs h → h.Pairwise (· < ·) →
    segs.Pairwise fun a b => a.y0 < b.y0 ∧ a.x0 < b.x0 := by
  intro segs
  induction segs with
  | nil => intro x h _ _; exact List.Pairwise.nil
  | cons c cs ih =>
    intro x h d H
    have sep := Desc_sep d H
    obtain ⟨bk, rest, rfl, okc, d'⟩ := d
    refine List.Pairwise.cons (fun b hb => ?_) (ih d' (List.pairwise_append.1 H).2.1)
    obtain ⟨g, bb, g', -, okb⟩ := Desc_mem d' hb
    have h1 := sep b hb
    have h2 := okc.last_le.1
    have h3 := okc.x0
    have h4 := okb.x0
    have h5 := okc.pos
    omega

/-- **C47, exactly.** From the first point to before the last: `get_next_sample` is the first sample of the *last* segment while `t` is not after its start,
and nothing afterwards; `get_previous_sample` is the last sample before the first segment that starts after `t`, and nothing if none does. -/
theorem C47_exact (p : Profile) (h : List Int) (H : StrictHistory h) (v : Vsri) (rs : List Bool) (hr : Vsri.run p .new h = .ok (v, rs))
    (t : Int) (hmin : v.min ≤ t) (hmax : t < v.max) :
    (∀ l, v.segs.getLast? = some l → v.getNext t = if t ≤ l.y0 then some l.x0 else none) ∧
    (∀ s ∈ v.segs, t < s.y0 → (∀ u ∈ v.segs, u.x0 < s.x0 → u.y0 ≤ t) → v.getPrevious p t = .ok (some (s.x0 - 1))) ∧
    ((∀ s ∈ v.segs, s.y0 ≤ t) → v.getPrevious p t = .ok none) := by
  obtain ⟨I, -⟩ := run_inv H hr
  have ord := Desc_order I.desc H.increasing
  have hp : v.getPrevious p t = prevIn p t v.segs := by
    unfold getPrevious
    rw [if_neg (by omega), if_neg (by omega)]
  refine ⟨fun l hl => ?_, fun s hs ht hu => ?_, fun ha => ?_⟩
  · obtain ⟨ss, hss⟩ := List.getLast?_eq_some_iff.1 hl
    unfold getNext
    rw [if_neg (by omega), if_neg (by omega), hss, List.reverse_append, List.reverse_singleton, List.singleton_append, nextIn]
    by_cases hle : t ≤ l.y0
    · rw [if_pos hle, if_pos hle]
    · rw [if_neg hle, if_neg hle]
      rw [hss] at ord
      refine nextIn_none fun u hu => ?_
      have := (List.pairwise_append.1 ord).2.2 u (List.mem_reverse.1 hu) l (by simp)
      omega
  · rw [hp]
    obtain ⟨pre, post, hsp⟩ := List.append_of_mem hs
    obtain ⟨g, b, g', hg, ok⟩ := Desc_mem I.desc hs
    have hx := ok.x0
    have hl : (g.length : Int) ≤ h.length := by rw [hg]; simp only [List.length_append]; omega
    have hf := H.few
    rw [hsp]
    refine prevIn_at (fun a ha => hu a (by rw [hsp]; simp [ha]) ?_) ht (by unfold InI32; omega)
    rw [hsp] at ord
    exact ((List.pairwise_append.1 ord).2.2 a ha s (by simp)).2
  · rw [hp]; exact prevIn_none ha

/-- 0 10 20 | 100 110 | 200 210 at 5, inside the first segment: the next sample is 1, the answer 5; the previous one is 0, the answer 2.  At 205 there is
neither. -/
example : okAnd (Vsri.run .debug .new [0, 10, 20, 100, 110, 200, 210]) (fun q => q.1.getNext 5 = some 5 ∧ q.1.getPrevious .debug 5 = .ok (some 2) ∧
    q.1.getNext 205 = none ∧ q.1.getPrevious .debug 205 = .ok none) = true := by decide

/-- **C76, this or next, exactly.** Within the span of a segment `get_this_or_next` is the sample whose slot holds `t` (a panic for a one-sample segment);
outside all segments it is sample 0 before the first point, the first sample of the *last* segment up to its start, and nothing afterwards. -/
theorem C76_next_exact (p : Profile) (h : List Int) (H : DayHistory h) (v : Vsri) (rs : List Bool) (hr : Vsri.run p .new h = .ok (v, rs)) (t : Int)
    (l : Seg) (hl : v.segs.getLast? = some l) :
    (∀ s ∈ v.segs, s.Spans t → s.n ≠ 1 → v.thisOrNext p t = .ok (some (s.x0 + (t - s.y0) / s.m))) ∧
    (∀ s ∈ v.segs, s.Spans t → s.n = 1 → v.thisOrNext p t = .error .divZero) ∧
    ((∀ s ∈ v.segs, ¬ s.Spans t) →
      v.thisOrNext p t = .ok (if t < v.min then some 0 else if t < l.y0 then some l.x0 else none)) := by
  obtain ⟨L1, L2, L3⟩ := C44_lookup p h H v rs hr t
  obtain ⟨I, -⟩ := run_inv H.strict hr
  have hne : h ≠ [] := by
    rintro rfl
    obtain ⟨rfl, -⟩ := Prod.mk.inj (Except.ok.inj hr)
    cases hl
  have hlm : l ∈ v.segs := List.mem_of_getLast? hl
  refine ⟨fun s hs h1 h2 => ?_, fun s hs h1 h2 => ?_, fun ha => ?_⟩
  · unfold thisOrNext; rw [L1 s hs h1 h2]; rfl
  · unfold thisOrNext; rw [L2 s hs h1 h2]; rfl
  · unfold thisOrNext
    rw [L3 ha]
    have key : v.getNext t = if t < v.min then some 0 else if t < l.y0 then some l.x0 else none := by
      have out := C47_outside p h H.strict v rs hr t
      by_cases c1 : t < v.min
      · rw [if_pos c1, (out.1 c1).1]
      · rw [if_neg c1]
        -- the last segment starts at one of the points
        obtain ⟨g, b, g', hg, ok⟩ := Desc_mem I.desc hlm
        have hy : l.y0 ∈ h := by
          rw [hg, ← ok.first]; simp
        have hle : l.y0 ≤ v.max := by
          unfold Vsri.max
          rw [I.maxTs]
          have e : h.getLastD 0 = h[h.length - 1]'(by have := List.length_pos_iff.2 hne; omega) := by
            rw [List.getLastD_eq_getLast?, List.getLast?_eq_some_getLast hne]
            exact List.getLast_eq_getElem hne
          rw [e]
          obtain ⟨j, hj, hjy⟩ := List.getElem_of_mem hy
          rw [← hjy]
          by_cases h0 : j = h.length - 1
          · simp only [h0]; exact le_refl _
          · exact (List.pairwise_iff_getElem.1 H.increasing j (h.length - 1) hj (by omega) (by omega)).le
        by_cases c2 : v.max ≤ t
        · rw [if_neg (by omega), (out.2 hne c2).1]
        · rw [(C47_exact p h H.strict v rs hr t (by omega) (by omega)).1 l hl]
          have hls : l.y0 ≤ l.last := ok.last_le.1
          by_cases c3 : t < l.y0
          · rw [if_pos c3, if_pos (by omega)]
          · rw [if_neg c3, if_neg]
            intro c4
            exact ha l hlm ⟨by omega, by omega⟩
    rw [← key]
    rfl

/-- 0 10 20 | 100 110 | 200 210: at 50 (a gap) the answer is 5, the first sample of the last segment; at 15 it is 1, the sample before; at 220 nothing. -/
example : okAnd (Vsri.run .debug .new [0, 10, 20, 100, 110, 200, 210]) (fun q => q.1.segs.getLast? = some ⟨10, 5, 200, 2⟩ ∧
    q.1.thisOrNext .debug 50 = .ok (some 5) ∧ q.1.thisOrNext .debug 15 = .ok (some 1) ∧ q.1.thisOrNext .debug 220 = .ok none) = true := by decide

/-- **C50, the queries.** On a day index no lookup overflows, whatever it is asked: `get_sample`, `get_time`, `get_this_or_previous` and `get_this_or_next`
answer the same in a debug build, where an overflow would be a panic, and in a release build; the only panic is the division by zero of C44. -/
theorem C50_queries_no_overflow (p : Profile) (h : List Int) (H : DayHistory h) (v : Vsri) (rs : List Bool) (hr : Vsri.run p .new h = .ok (v, rs)) (t : Int) :
    v.getSample .debug t = v.getSample .release t ∧ v.getSample .debug t ≠ .error .overflow ∧
    v.getTime .debug t = v.getTime .release t ∧ (∃ r, v.getTime .debug t = .ok r) ∧
    v.thisOrPrevious .debug t = v.thisOrPrevious .release t ∧ v.thisOrPrevious .debug t ≠ .error .overflow ∧
    v.thisOrNext .debug t = v.thisOrNext .release t ∧ v.thisOrNext .debug t ≠ .error .overflow := by
  -- both builds build this index
  obtain ⟨w, r1, r2, -⟩ := C50_day_no_overflow h H
  have hw : v = w := by
    cases p
    · rw [hr] at r1; exact congrArg Prod.fst (Except.ok.inj r1)
    · rw [hr] at r2; exact congrArg Prod.fst (Except.ok.inj r2)
  subst hw
  obtain ⟨I, -⟩ := run_inv H.strict hr
  have D := C44_lookup .debug h H v _ r1 t
  have R := C44_lookup .release h H v _ r2 t
  have hs : v.getSample .debug t = v.getSample .release t ∧ v.getSample .debug t ≠ .error .overflow := by
    by_cases c : ∃ s ∈ v.segs, s.Spans t
    · obtain ⟨s, hm, hsp⟩ := c
      by_cases hn : s.n = 1
      · rw [D.2.1 s hm hsp hn, R.2.1 s hm hsp hn]; exact ⟨rfl, by simp⟩
      · rw [D.1 s hm hsp hn, R.1 s hm hsp hn]; exact ⟨rfl, by simp⟩
    · have c' : ∀ s ∈ v.segs, ¬ s.Spans t := fun s hm hsp => c ⟨s, hm, hsp⟩
      rw [D.2.2 c', R.2.2 c']; exact ⟨rfl, by simp⟩
  have hp : v.getPrevious .debug t = v.getPrevious .release t ∧ ∃ r, v.getPrevious .debug t = .ok r := by
    refine ⟨?_, getPrevious_ok I t⟩
    unfold getPrevious
    by_cases a1 : t < v.min
    · rw [if_pos a1, if_pos a1]
    rw [if_neg a1, if_neg a1]
    by_cases a2 : t ≥ v.max
    · rw [if_pos a2, if_pos a2, Inv_count I, Inv_count I]
    rw [if_neg a2, if_neg a2]
    have same : ∀ segs : List Seg, (∀ s ∈ segs, 0 ≤ s.x0 ∧ s.x0 < 2147483648) → prevIn .debug t segs = prevIn .release t segs := by
      intro segs
      induction segs with
      | nil => exact fun _ => rfl
      | cons s ss ih =>
        intro hx
        have := hx s (by simp)
        rw [prevIn, prevIn, ih fun u hu => hx u (by simp [hu]), i32op_in (by unfold InI32; omega), i32op_in (by unfold InI32; omega)]
    refine same _ fun s hs => ?_
    obtain ⟨g, b, g', hg, ok⟩ := Desc_mem I.desc hs
    have := ok.x0
    have hf := I.hist.few
    have : g.length ≤ h.length := by rw [hg]; simp
    omega
  have ht : v.getTime .debug t = v.getTime .release t ∧ ∃ r, v.getTime .debug t = .ok r := by
    have ED := C45_ends .debug h H.strict v _ r1
    have ER := C45_ends .release h H.strict v _ r2
    by_cases c1 : t < 0
    · rw [ED.2.2.2 t c1, ER.2.2.2 t c1]; exact ⟨rfl, _, rfl⟩
    by_cases c2 : (h.length : Int) < t
    · rw [ED.2.1 t c2, ER.2.1 t c2]; exact ⟨rfl, _, rfl⟩
    by_cases c3 : t = h.length
    · by_cases hne : h = []
      · subst hne
        simp only [List.length_nil, Nat.cast_zero] at c3
        rw [c3, ED.1, ER.1]; exact ⟨rfl, _, rfl⟩
      · rw [c3, ED.2.2.1 hne, ER.2.2.1 hne]; exact ⟨rfl, _, rfl⟩
    obtain ⟨k, rfl⟩ := Int.eq_ofNat_of_zero_le (by omega : 0 ≤ t)
    obtain ⟨ts, q1, T⟩ := times_of (p := .debug) I
    obtain ⟨ts', q2, T'⟩ := times_of (p := .release) I
    have hk : k < ts.length := by rw [T.len]; omega
    obtain ⟨s, hs, hh⟩ := T.cover k hk
    obtain ⟨u, u1, u2, u3, -⟩ := C45_exact_day .debug h H v _ r1 k s hs hh
    obtain ⟨u', u1', u2', u3', -⟩ := C45_exact_day .release h H v _ r2 k s hs hh
    rw [q1] at u1
    rw [q2] at u1'
    obtain rfl := Except.ok.inj u1
    obtain rfl := Except.ok.inj u1'
    rw [u3, u3', T.formula k hk s hs hh, T'.formula k u2' s hs hh]
    exact ⟨rfl, _, rfl⟩
  refine ⟨hs.1, hs.2, ht.1, ht.2, ?_, ?_, ?_, ?_⟩
  · unfold thisOrPrevious; rw [hs.1, hp.1]
  · obtain ⟨r, e⟩ := hp.2
    unfold thisOrPrevious
    have := hs.2
    cases hg : v.getSample .debug t with
    | error e => rw [hg] at this; intro hc; exact this hc
    | ok q => rw [e]; intro hc; cases hc
  · unfold thisOrNext; rw [hs.1]
  · unfold thisOrNext
    have := hs.2
    cases hg : v.getSample .debug t with
    | error e => rw [hg] at this; intro hc; exact this hc
    | ok q => cases q <;> intro hc <;> cases hc

/-- Beyond a day the builds do differ (`C44_refuted_wrap`); within one they agree, here on the day above at its end and at its middle. -/
example : okAnd (Vsri.run .debug .new [0, 10, 20, 100, 110, 200, 210]) (fun q => q.1.getTime .debug 6 = q.1.getTime .release 6 ∧
    q.1.getTime .debug 6 = .ok (some 260) ∧ q.1.getSample .debug 105 = q.1.getSample .release 105) = true := by decide

end Atsc
