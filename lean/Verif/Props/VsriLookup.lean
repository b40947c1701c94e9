import Verif.Props.Vsri
/- Properties of the lookups of the time index (C44–C48). -/
namespace Atsc
open Vsri

/-! ### What the loops compute on a described history -/

/-- The product a lookup in the segment needs fits an `i32`. -/
def Seg.Small (s : Seg) : Prop := s.last - s.y0 + s.m * s.x0 < 2147483648

/-- A lookup inside the span of a segment. -/
theorem lookup_in {p : Profile} {s : Seg} {x : Int} {blk : List Int} (ok : SegOK s x blk) (hx : 0 ≤ x) (hr : ∀ y ∈ blk, 0 ≤ y ∧ y < 2147483648)
    (hsm : s.Small) {t : Int} (ht : s.Spans t) :
    (do let b ← calculateB p s
        let d ← i32op p (t - b)
        let x ← i32div d s.m
        .ok (some x) : Except Panic (Option Int)) =
      if s.m = 0 then .error .divZero else .ok (some (s.x0 + (t - s.y0) / s.m)) := by
  have h0 := hr _ (List.getElem_mem ok.pos)
  rw [ok.first] at h0
  have hm := ok.m_nonneg
  have hx0 : 0 ≤ s.x0 := by rw [ok.x0]; exact hx
  have hmx : 0 ≤ s.m * s.x0 := Int.mul_nonneg hm hx0
  have hl := ok.last_le.1
  unfold Seg.Small at hsm
  unfold Seg.Spans at ht
  unfold calculateB
  rw [i32op_in (a := s.m * s.x0) (by unfold InI32; omega)]
  simp only [bind, Except.bind]
  rw [i32op_in (a := s.y0 - s.m * s.x0) (by unfold InI32; omega)]
  simp only
  rw [i32op_in (a := t - (s.y0 - s.m * s.x0)) (by unfold InI32; omega)]
  simp only
  by_cases hz : s.m = 0
  · rw [if_pos hz, hz]; rfl
  · rw [if_neg hz, i32div_pos (by omega)]
    simp only
    rw [Int.tdiv_eq_ediv_of_nonneg (by omega)]
    have e : t - (s.y0 - s.m * s.x0) = (t - s.y0) + s.x0 * s.m := by ring
    rw [e, Int.add_mul_ediv_right _ _ hz, Int.add_comm]

theorem getSampleIn_desc {p : Profile} {t : Int} : ∀ {segs : List Seg} {x : Int} {h : List Int}, 0 ≤ x → Desc x segs h →
    h.Pairwise (· < ·) → (∀ y ∈ h, 0 ≤ y ∧ y < 2147483648) → h.length < 2147483648 → (∀ s ∈ segs, s.Small) →
    (∀ s ∈ segs, s.Spans t → getSampleIn p t segs = if s.m = 0 then .error .divZero else .ok (some (s.x0 + (t - s.y0) / s.m))) ∧
    ((∀ s ∈ segs, ¬ s.Spans t) → getSampleIn p t segs = .ok none) := by
  intro segs
  induction segs with
  | nil => intro x h _ _ _ _ _ _; exact ⟨fun s hs => (by simp at hs), fun _ => rfl⟩
  | cons s ss ih =>
    intro x h hx d H hr hl hsm
    have sep := Desc_sep d H
    obtain ⟨blk, rest, rfl, ok, d'⟩ := d
    have hrb : ∀ y ∈ blk, 0 ≤ y ∧ y < 2147483648 := fun y hy => hr y (List.mem_append_left _ hy)
    have he := segEnd_ok (p := p) ok hrb (by simp at hl; omega)
    obtain ⟨i1, i2⟩ := ih (by omega) d' (List.pairwise_append.1 H).2.1 (fun y hy => hr y (List.mem_append_right _ hy))
      (by simp at hl; omega) (fun u hu => hsm u (by simp [hu]))
    have skip : ¬ s.Spans t → getSampleIn p t (s :: ss) = getSampleIn p t ss := by
      intro hn
      rw [getSampleIn, he]; simp only [bind, Except.bind]
      exact if_neg (by exact hn)
    constructor
    · intro u hu hsp
      rcases List.mem_cons.1 hu with rfl | hu
      · rw [getSampleIn, he]; simp only [bind, Except.bind]
        rw [if_pos (by exact hsp)]
        exact lookup_in ok hx hrb (hsm _ (by simp)) hsp
      · rw [skip (by
          intro hs
          have := sep u hu
          unfold Seg.Spans at hs hsp
          omega)]
        exact i1 u hu hsp
    · intro hn
      rw [skip (hn s (by simp))]
      exact i2 (fun u hu => hn u (by simp [hu]))

/-- Indexes of one day never overflow in a lookup. -/
theorem small_day {segs : List Seg} {h : List Int} (d : Desc 0 segs h) (H : h.Pairwise (· < ·)) (hr : ∀ y ∈ h, 0 ≤ y ∧ y ≤ 92680) :
    ∀ s ∈ segs, s.Small := by
  intro s hs
  obtain ⟨g, blk, g', rfl, ok⟩ := Desc_mem d hs
  rw [Int.zero_add] at ok
  have hp := ok.pos
  have h1 := ok.last_le
  have h2 := hr (blk[blk.length - 1]'(by omega)) (by simp [List.getElem_mem])
  have h3 : s.x0 ≤ s.y0 := by
    have := idx_le H (fun z hz => (hr z hz).1) g.length (by simp; omega)
    rw [List.getElem_append_right (le_refl _)] at this
    rw [ok.x0, ← ok.first]
    rw [List.getElem_append_left (by simpa using hp)] at this
    simpa using this
  have h0 : 0 ≤ s.x0 := by rw [ok.x0]; omega
  unfold Seg.Small
  rcases ok.kind with ⟨k1, k2⟩ | ⟨k1, k2⟩
  · rw [k2]; unfold Seg.last at *; rw [k2] at *; omega
  · have h4 : s.m ≤ 92680 - s.y0 := by
      have e : s.last = s.y0 + s.m * (s.n - 1) := rfl
      have : s.m * 1 ≤ s.m * (s.n - 1) := Int.mul_le_mul_of_nonneg_left (by rw [ok.n]; omega) k2.le
      omega
    have a1 : s.m * s.x0 ≤ s.m * s.y0 := Int.mul_le_mul_of_nonneg_left h3 k2.le
    have a2 : s.m * s.y0 ≤ (92680 - s.y0) * s.y0 := Int.mul_le_mul_of_nonneg_right h4 (by omega)
    nlinarith [sq_nonneg (2 * s.y0 - 92679)]

/-! ### C44 -/

/-- C44 for day indexes, the complete behaviour of a lookup: inside the span of a segment of several samples it returns the number of the
sample whose slot contains `t`; at the time of a one-sample last segment it panics; anywhere else it returns `None`.  That every recorded
point is found fails at that panic (`C44_refuted_single`) and for a late last sample of a segment (`C44_refuted_late`). -/
theorem C44_lookup (p : Profile) (h : List Int) (H : DayHistory h) (v : Vsri) (rs : List Bool)
    (hr : Vsri.run p .new h = .ok (v, rs)) (t : Int) :
    (∀ s ∈ v.segs, s.Spans t → s.n ≠ 1 → v.getSample p t = .ok (some (s.x0 + (t - s.y0) / s.m))) ∧
    (∀ s ∈ v.segs, s.Spans t → s.n = 1 → v.getSample p t = .error .divZero) ∧
    ((∀ s ∈ v.segs, ¬ s.Spans t) → v.getSample p t = .ok none) := by
  obtain ⟨I, -⟩ := run_inv H.strict hr
  have hsm := small_day I.desc H.increasing (fun y hy => by have := H.range y hy; omega)
  obtain ⟨g1, g2⟩ := getSampleIn_desc (p := p) (t := t) (le_refl 0) I.desc H.increasing H.strict.range H.strict.few hsm
  refine ⟨fun s hs hsp hn => ?_, fun s hs hsp hn => ?_, g2⟩
  · obtain ⟨g, blk, g', -, ok⟩ := Desc_mem I.desc hs
    have := g1 s hs hsp
    rw [if_neg (by rcases ok.kind with ⟨k1, _⟩ | ⟨_, k2⟩
                   · exfalso; apply hn; rw [ok.n, k1]; rfl
                   · omega)] at this
    exact this
  · obtain ⟨g, blk, g', -, ok⟩ := Desc_mem I.desc hs
    have := g1 s hs hsp
    rw [if_pos (by rcases ok.kind with ⟨_, k2⟩ | ⟨k1, _⟩
                   · exact k2
                   · rw [ok.n] at hn; omega)] at this
    exact this

/-- C44 for the indexed points themselves: point number `i` is found as sample `i`, provided its segment has several samples and, if it is the
last of its segment, the segment's line reaches it. -/
theorem C44_points (p : Profile) (h : List Int) (H : DayHistory h) (v : Vsri) (rs : List Bool)
    (hr : Vsri.run p .new h = .ok (v, rs)) (i : Nat) (hi : i < h.length) (s : Seg) (hs : s ∈ v.segs) (hh : s.Has i) (hn : s.n ≠ 1)
    (hlate : h[i] ≤ s.last) : v.getSample p h[i] = .ok (some (i : Int)) := by
  obtain ⟨I, -⟩ := run_inv H.strict hr
  obtain ⟨g, blk, g', hg, ok⟩ := Desc_mem I.desc hs
  rw [Int.zero_add] at ok
  unfold Seg.Has at hh
  rw [ok.x0, ok.n] at hh
  have hj : i - g.length < blk.length := by omega
  have e : h[i] = blk[i - g.length] := by
    subst hg
    rw [List.getElem_append_right (by omega), List.getElem_append_left hj]
  have hm : 0 < s.m := by
    rcases ok.kind with ⟨k1, _⟩ | ⟨_, k2⟩
    · exfalso; apply hn; rw [ok.n, k1]; rfl
    · exact k2
  have nr := ok.near _ hj
  have nr2 := nr.2 hm
  rw [← e] at nr nr2
  have hge : 0 ≤ s.m * ((i - g.length : Nat) : Int) := Int.mul_nonneg hm.le (Int.natCast_nonneg _)
  rw [(C44_lookup p h H v rs hr h[i]).1 s hs ⟨by omega, hlate⟩ hn]
  have q : (h[i] - s.y0) / s.m = ((i - g.length : Nat) : Int) := by
    rw [Int.ediv_eq_iff_of_pos hm]
    have e4 : s.m * (((i - g.length : Nat) : Int) + 1) = s.m * ((i - g.length : Nat) : Int) + s.m := by ring
    rw [e4] at nr2
    constructor
    · rw [Int.mul_comm]; omega
    · rw [Int.mul_comm]; omega
  rw [q, ok.x0]
  congr 2
  omega

/-- C44: a sample followed by another sample of its segment is always found. -/
theorem C44_not_last (p : Profile) (h : List Int) (H : DayHistory h) (v : Vsri) (rs : List Bool)
    (hr : Vsri.run p .new h = .ok (v, rs)) (i : Nat) (hi : i < h.length) (s : Seg) (hs : s ∈ v.segs) (hh : s.Has i) (hh' : s.Has (i + 1)) :
    v.getSample p h[i] = .ok (some (i : Int)) := by
  obtain ⟨I, -⟩ := run_inv H.strict hr
  obtain ⟨g, blk, g', hg, ok⟩ := Desc_mem I.desc hs
  rw [Int.zero_add] at ok
  have hh1 := hh
  unfold Seg.Has at hh hh'
  rw [ok.x0, ok.n] at hh hh'
  have hj : i - g.length < blk.length := by omega
  have e : h[i] = blk[i - g.length] := by
    subst hg
    rw [List.getElem_append_right (by omega), List.getElem_append_left hj]
  have hm : 0 < s.m := by
    rcases ok.kind with ⟨k1, _⟩ | ⟨_, k2⟩
    · omega
    · exact k2
  refine C44_points p h H v rs hr i hi s hs hh1 (by rw [ok.n]; omega) ?_
  have nr := (ok.near _ hj).2 hm
  rw [← e] at nr
  have e1 : s.m * (((i - g.length : Nat) : Int) + 1) ≤ s.m * (s.n - 1) :=
    Int.mul_le_mul_of_nonneg_left (by rw [ok.n]; omega) hm.le
  unfold Seg.last
  omega

/-- The conditions of the C44 theorems are met: 0, 10, 25, 30 | 100 110. -/
example : DayHistory [0, 10, 25, 30, 100, 110] := ⟨by decide, by decide⟩
example : okAnd (Vsri.run .debug .new [0, 10, 25, 30, 100, 110])
    (fun q => q.1.segs = [⟨10, 0, 0, 4⟩, ⟨10, 4, 100, 2⟩] ∧ q.1.getSample .debug 25 = .ok (some 2) ∧ q.1.getSample .debug 110 = .ok (some 5) ∧
      q.1.getSample .debug 40 = .ok none) = true := by decide

/-- C44 refuted: whenever the last segment of a day index has one sample, looking up the time of that sample (the maximum) divides by zero. -/
theorem C44_refuted_single (p : Profile) (h : List Int) (H : DayHistory h) (v : Vsri) (rs : List Bool)
    (hr : Vsri.run p .new h = .ok (v, rs)) (s : Seg) (hs : s ∈ v.segs) (hn : s.n = 1) : v.getSample p s.y0 = .error .divZero :=
  (C44_lookup p h H v rs hr s.y0).2.1 s hs ⟨le_refl _, by unfold Seg.last; rw [hn]; omega⟩ hn

example : okAnd (Vsri.run .release .new [5]) (fun q => q.1.getSample .release 5 = .error .divZero) = true := by decide
example : okAnd (Vsri.run .release .new [0, 10, 20, 500]) (fun q => q.1.getSample .release 500 = .error .divZero) = true := by decide

/-- C44 refuted: the last of 0, 10, 25 is accepted as sample 2 but not found again. -/
theorem C44_refuted_late (p : Profile) : okAnd (Vsri.run p .new [0, 10, 25])
    (fun q => q.1.sampleCount p = .ok 3 ∧ q.1.getSample p 25 = .ok none) = true := by cases p <;> decide

/-- C44 refuted beyond one day, in release builds: the product wraps and a lookup of the third point returns sample number -2. -/
theorem C44_refuted_wrap : okAnd (Vsri.run .release .new [0, 1, 3, 1073741827])
    (fun q => q.1.sampleCount .release = .ok 4 ∧ q.1.getSample .release 3 = .ok (some (-2))) = true := by decide

/-! ### C45 -/

theorem getTimeIn_desc {p : Profile} {i : Int} : ∀ {segs : List Seg} {x : Int} {h : List Int}, 0 ≤ x → Desc x segs h →
    x + h.length < 2147483648 →
    (∀ s ∈ segs, s.Has i → InI32 (s.m * i) → InI32 (s.y0 + s.m * i) → getTimeIn p i segs = .ok (some (s.y0 + s.m * i))) ∧
    ((∀ s ∈ segs, ¬ s.Has i) → getTimeIn p i segs = .ok none) := by
  intro segs
  induction segs with
  | nil => intro x h _ _ _; exact ⟨fun s hs => (by simp at hs), fun _ => rfl⟩
  | cons s ss ih =>
    rintro x h hx ⟨blk, rest, rfl, ok, d⟩ hl
    simp only [List.length_append] at hl
    push_cast at hl
    obtain ⟨i1, i2⟩ := ih (by omega) d (by omega)
    have hb : i32op p (s.x0 + s.n) = .ok (s.x0 + s.n) := i32op_in (by unfold InI32; rw [ok.x0, ok.n]; omega)
    have skip : ¬ s.Has i → getTimeIn p i (s :: ss) = getTimeIn p i ss := by
      intro hn
      unfold Seg.Has at hn
      rw [getTimeIn]
      by_cases h1 : i ≥ s.x0
      · rw [if_pos h1, hb]; simp only [bind, Except.bind]
        rw [if_neg (by omega)]
      · rw [if_neg h1]
    constructor
    · intro u hu hh r1 r2
      rcases List.mem_cons.1 hu with rfl | hu
      · unfold Seg.Has at hh
        rw [getTimeIn, if_pos hh.1, hb]; simp only [bind, Except.bind]
        rw [if_pos hh.2, i32op_in r1]; simp only
        rw [i32op_in r2]
      · rw [skip (by
          obtain ⟨g, b, g', -, ok'⟩ := Desc_mem d hu
          intro hs
          unfold Seg.Has at hs hh
          rw [ok'.x0] at hh
          rw [ok.x0, ok.n] at hs
          omega)]
        exact i1 u hu hh r1 r2
    · intro hn
      rw [skip (hn s (by simp))]
      exact i2 (fun u hu => hn u (by simp [hu]))

/-- C45 for the first segment of the index: `get_time(i)` is the recorded time of sample `i` (the one `get_all_timestamps` gives).  For samples of
later segments it is not (`C45_refuted_later_segments`). -/
theorem C45_first_segment (p : Profile) (h : List Int) (H : StrictHistory h) (v : Vsri) (rs : List Bool)
    (hr : Vsri.run p .new h = .ok (v, rs)) (i : Nat) (s : Seg) (ss : List Seg) (hs : v.segs = s :: ss) (hi : (i : Int) < s.n) :
    ∃ ts, v.allTimestamps p = .ok ts ∧ ∃ hi' : i < ts.length, v.getTime p i = .ok (some ts[i]) := by
  obtain ⟨I, -⟩ := run_inv H hr
  obtain ⟨t1, t2, t3⟩ := Desc_times (p := p) I.desc H.range
  have d := I.desc
  rw [hs] at d
  obtain ⟨blk, rest, hh, ok, d'⟩ := d
  have hib : i < blk.length := by rw [ok.n] at hi; omega
  have hih : i < h.length := by rw [hh]; simp; omega
  have hx0 : s.x0 = 0 := ok.x0
  have ht : (v.segs.map Seg.times).flatten[i]'(by omega) = s.y0 + s.m * i := by
    have hts : s.times.length = blk.length := by unfold Seg.times; rw [ok.n]; simp
    have e : (v.segs.map Seg.times).flatten = s.times ++ (ss.map Seg.times).flatten := by rw [hs]; rfl
    have : (v.segs.map Seg.times).flatten[i]'(by omega) = (s.times ++ (ss.map Seg.times).flatten)[i]'(by rw [← e]; omega) := by
      simp only [e]
    rw [this, List.getElem_append_left (by omega)]
    unfold Seg.times
    simp
    ring
  refine ⟨(v.segs.map Seg.times).flatten, ?_, by omega, ?_⟩
  · unfold allTimestamps; rw [t1]; rfl
  · rw [ht]
    have hc := Inv_count (p := p) I
    unfold getTime
    by_cases h0 : (i : Int) = 0
    · rw [if_pos h0, h0]
      unfold Vsri.min
      rw [I.minTs, hh]
      have : (blk ++ rest).headD 0 = s.y0 := by
        have := ok.head
        cases blk with
        | nil => cases this
        | cons a l => simpa using this
      rw [this]; simp
    · rw [if_neg h0, hc]
      simp only [bind, Except.bind]
      rw [if_neg (by omega), if_neg (by omega)]
      have hr' : ∀ y ∈ blk, 0 ≤ y ∧ y < 2147483648 := fun y hy => H.range y (by rw [hh]; simp [hy])
      have n1 := (ok.near i hib).1
      have r1 := hr' _ (List.getElem_mem hib)
      have r0 := hr' _ (List.getElem_mem ok.pos)
      rw [ok.first] at r0
      have hm : 0 ≤ s.m * (i : Int) := Int.mul_nonneg ok.m_nonneg (Int.natCast_nonneg _)
      exact (getTimeIn_desc (p := p) (i := (i : Int)) (le_refl 0) I.desc (by have := H.few; omega)).1 s (by rw [hs]; simp)
        ⟨by rw [hx0]; omega, by rw [hx0]; omega⟩ (by unfold InI32; omega) (by unfold InI32; omega)

/-- C45, the ends: sample 0 is at the minimum; a number after the sample count has no time; but the number equal to the count — one past the last
sample — is given the time of the last sample. -/
theorem C45_ends (p : Profile) (h : List Int) (H : StrictHistory h) (v : Vsri) (rs : List Bool) (hr : Vsri.run p .new h = .ok (v, rs)) :
    v.getTime p 0 = .ok (some v.min) ∧ (∀ x : Int, (h.length : Int) < x → v.getTime p x = .ok none) ∧
      (h ≠ [] → v.getTime p h.length = .ok (some v.max)) ∧ (∀ x : Int, x < 0 → v.getTime p x = .ok none) := by
  obtain ⟨I, -⟩ := run_inv H hr
  have hc := Inv_count (p := p) I
  refine ⟨rfl, fun x hx => ?_, fun hne => ?_, fun x hx => ?_⟩
  · unfold getTime
    rw [if_neg (by omega), hc]; simp only [bind, Except.bind]
    rw [if_pos (by omega)]
  · have : h.length ≠ 0 := by simpa using hne
    unfold getTime
    rw [if_neg (by omega), hc]; simp only [bind, Except.bind]
    rw [if_neg (by omega)]
    exact if_pos trivial
  · unfold getTime
    rw [if_neg (by omega), hc]; simp only [bind, Except.bind]
    rw [if_neg (by omega), if_neg (by omega)]
    refine (getTimeIn_desc (p := p) (i := x) (le_refl 0) I.desc (by have := H.few; omega)).2 (fun s hs hh => ?_)
    obtain ⟨g, blk, g', -, ok⟩ := Desc_mem I.desc hs
    unfold Seg.Has at hh
    rw [ok.x0] at hh; omega

/-- C45 refuted: for a sample of any segment but the first, `get_time` is off by (rate × number of the segment's first sample) — always too late
when the segment has a rate. -/
theorem C45_refuted_later_segments (p : Profile) (h : List Int) (H : StrictHistory h) (v : Vsri) (rs : List Bool)
    (hr : Vsri.run p .new h = .ok (v, rs)) (i : Nat) (s : Seg) (hs : s ∈ v.segs) (hh : s.Has i) (hx : 0 < s.x0)
    (hno : s.y0 + s.m * i < 2147483648) :
    ∃ ts, v.allTimestamps p = .ok ts ∧ ∃ hi : i < ts.length, v.getTime p i = .ok (some (ts[i] + s.m * s.x0)) := by
  obtain ⟨I, -⟩ := run_inv H hr
  obtain ⟨t1, t2, t3⟩ := Desc_times (p := p) I.desc H.range
  obtain ⟨g, blk, g', hg, ok⟩ := Desc_mem I.desc hs
  rw [Int.zero_add] at ok
  have hh' := hh
  unfold Seg.Has at hh'
  have hlt : i < h.length := by
    rw [ok.x0, ok.n] at hh'
    rw [hg]; simp; omega
  obtain ⟨-, u, hu, hu2, ht, -⟩ := t3 i (by omega) hlt
  rw [Int.zero_add] at hu2 ht
  -- the segment holding sample `i` is unique
  have huniq : ∀ {segs : List Seg} {x : Int} {h : List Int}, Desc x segs h → ∀ a ∈ segs, ∀ b ∈ segs, a.Has i → b.Has i → a = b := by
    intro segs
    induction segs with
    | nil => intro x h _ a ha; cases ha
    | cons c cs ih =>
      rintro x h ⟨bk, rest, rfl, okc, d⟩ a ha b hb hai hbi
      have no : ∀ e ∈ cs, ¬ (c.Has i ∧ e.Has i) := by
        rintro e he ⟨q1, q2⟩
        obtain ⟨g1, b1, g1', -, oke⟩ := Desc_mem d he
        unfold Seg.Has at q1 q2
        rw [oke.x0] at q2
        rw [okc.x0, okc.n] at q1
        omega
      rcases List.mem_cons.1 ha with rfl | ha
      · rcases List.mem_cons.1 hb with rfl | hb
        · rfl
        · exact absurd ⟨hai, hbi⟩ (no b hb)
      · rcases List.mem_cons.1 hb with rfl | hb
        · exact absurd ⟨hbi, hai⟩ (no a (by assumption))
        · exact ih d a ha b hb hai hbi
  obtain rfl := huniq I.desc u hu s hs hu2 hh
  refine ⟨(v.segs.map Seg.times).flatten, by unfold allTimestamps; rw [t1]; rfl, by omega, ?_⟩
  rw [ht]
  have e : u.y0 + u.m * ((i : Int) - u.x0) + u.m * u.x0 = u.y0 + u.m * i := by ring
  rw [e]
  have hc := Inv_count (p := p) I
  unfold getTime
  rw [if_neg (by omega), hc]
  simp only [bind, Except.bind]
  rw [if_neg (by omega), if_neg (by omega)]
  have hy0 : 0 ≤ u.y0 := by
    have := H.range u.y0 (by rw [hg, ← ok.first]; simp)
    exact this.1
  have hm : 0 ≤ u.m * (i : Int) := Int.mul_nonneg ok.m_nonneg (Int.natCast_nonneg _)
  exact (getTimeIn_desc (p := p) (i := (i : Int)) (le_refl 0) I.desc (by have := H.few; omega)).1 u hs hh
    (by unfold InI32; omega) (by unfold InI32; omega)

/-- C45, exactly, for a history of seconds of a day: `get_time` of sample `i` of segment `s` is the recorded time plus rate times the number of the
segment's first sample (no overflow in any build); so it is right exactly for the first segment and for segments of one sample. -/
theorem C45_exact_day (p : Profile) (h : List Int) (H : DayHistory h) (v : Vsri) (rs : List Bool)
    (hr : Vsri.run p .new h = .ok (v, rs)) (i : Nat) (s : Seg) (hs : s ∈ v.segs) (hh : s.Has i) :
    ∃ ts, v.allTimestamps p = .ok ts ∧ ∃ hi : i < ts.length, v.getTime p i = .ok (some (ts[i] + s.m * s.x0)) ∧
      (v.getTime p i = .ok (some ts[i]) ↔ s.x0 = 0 ∨ s.n = 1) := by
  have HS : StrictHistory h := ⟨H.increasing, fun y hy => by have := H.range y hy; omega, by
    rcases Nat.eq_zero_or_pos h.length with h0 | h0
    · omega
    · have := idx_le H.increasing (fun y hy => (H.range y hy).1) (h.length - 1) (by omega)
      have := H.range _ (List.getElem_mem (show h.length - 1 < h.length by omega))
      omega⟩
  obtain ⟨I, -⟩ := run_inv HS hr
  obtain ⟨g, blk, g', hg, ok⟩ := Desc_mem I.desc hs
  rw [Int.zero_add] at ok
  have hh' := hh
  unfold Seg.Has at hh'
  have hx0 : s.x0 = g.length := ok.x0
  have hkind : s.m = 0 ↔ s.n = 1 := by
    rw [ok.n]
    rcases ok.kind with ⟨h1, h2⟩ | ⟨h1, h2⟩ <;> constructor <;> intro <;> omega
  have fin : ∀ t : Int, ((.ok (some (t + s.m * s.x0)) : Except Panic (Option Int)) = .ok (some t) ↔ s.x0 = 0 ∨ s.n = 1) := by
    intro t
    rw [← hkind]
    constructor
    · intro e
      have e := Option.some.inj (Except.ok.inj e)
      have : s.m * s.x0 = 0 := by omega
      rcases Int.mul_eq_zero.1 this with h | h
      · exact .inr h
      · exact .inl h
    · rintro (h | h) <;> simp [h]
  by_cases hz : s.x0 = 0
  · -- the first segment
    cases hseg : v.segs with
    | nil => rw [hseg] at hs; cases hs
    | cons a as =>
      have d := I.desc
      rw [hseg] at d
      obtain ⟨b, r, hb, oka, d'⟩ := d
      rw [hseg] at hs
      have : s = a := by
        rcases List.mem_cons.1 hs with e | e
        · exact e
        · obtain ⟨g1, b1, g1', -, oke⟩ := Desc_mem d' e
          have h1 := oke.x0
          have h2 : 0 < b.length := by
            have := oka.kind; omega
          omega
      subst this
      obtain ⟨ts, t1, hi, t2⟩ := C45_first_segment p h HS v rs hr i s as hseg (by rw [hz] at hh'; omega)
      refine ⟨ts, t1, hi, ?_, ?_⟩
      · rw [hz, Int.mul_zero, Int.add_zero]; exact t2
      · simp [t2, hz]
  · have hx : 0 < s.x0 := by omega
    have hy0m : s.y0 ∈ h := by rw [hg]; exact List.mem_append_right _ (List.mem_append_left _ (List.mem_of_head? ok.head))
    have hy := H.range _ hy0m
    have hgy : s.x0 ≤ s.y0 := by
      have hb0 : 0 < blk.length := by have := ok.kind; omega
      have hlt : g.length < h.length := by rw [hg]; simp; omega
      have := idx_le H.increasing (fun y hy => (H.range y hy).1) g.length hlt
      have e : h[g.length] = s.y0 := by
        have : blk[0] = s.y0 := by
          have := ok.head; rw [List.head?_eq_getElem?, List.getElem?_eq_getElem hb0] at this
          exact Option.some.inj this
        rw [← this]; simp [hg, List.getElem_append_left hb0]
      omega
    have hlast : s.y0 + s.m * ((i : Int) - s.x0) < 86400 := by
      have hj : (i - g.length) < blk.length := by have := ok.n; omega
      have h1 := (ok.near _ hj).1
      have h2 := H.range _ (show blk[i - g.length] ∈ h by rw [hg]; simp)
      have e : ((i - g.length : Nat) : Int) = (i : Int) - s.x0 := by omega
      rw [e] at h1; omega
    have hm : s.y0 + s.m < 86400 := by
      rcases ok.kind with ⟨h1, h2⟩ | ⟨h1, h2⟩
      · omega
      · have := ok.second (by omega)
        have h2 := H.range _ (show blk[1] ∈ h by rw [hg]; simp)
        omega
    have hm0 : 0 ≤ s.m := by have := ok.kind; omega
    have hprod : s.m * s.x0 ≤ 1866240000 := by
      have h1 : s.m * s.x0 ≤ s.m * s.y0 := Int.mul_le_mul_of_nonneg_left hgy hm0
      have h2 : s.m * s.y0 ≤ (86400 - s.y0) * s.y0 := Int.mul_le_mul_of_nonneg_right (by omega) (by omega)
      nlinarith [sq_nonneg (s.y0 - 43200)]
    have hno : s.y0 + s.m * i < 2147483648 := by
      have e : s.y0 + s.m * (i : Int) = s.y0 + s.m * ((i : Int) - s.x0) + s.m * s.x0 := by ring
      omega
    obtain ⟨ts, t1, hi, t2⟩ := C45_refuted_later_segments p h HS v rs hr i s hs hh hx hno
    exact ⟨ts, t1, hi, t2, by rw [t2]; exact fin _⟩

/-- Concretely: 0, 10, 20 | 100, 110: `get_time(3)` is 130 although sample 3 was taken at 100. -/
example : okAnd (Vsri.run .debug .new [0, 10, 20, 100, 110]) (fun q => q.1.segs = [⟨10, 0, 0, 3⟩, ⟨10, 3, 100, 2⟩] ∧
    q.1.getTime .debug 2 = .ok (some 20) ∧ q.1.getTime .debug 3 = .ok (some 130) ∧ q.1.getTime .debug 5 = .ok (some 110)) = true := by decide

/-! ### C46 -/

theorem regular_length (t0 m : Int) (n : Nat) : (regular t0 m n).length = n := by simp [regular]

theorem regular_get (t0 m : Int) (n i : Nat) (h : i < (regular t0 m n).length) : (regular t0 m n)[i] = t0 + m * (i : Int) := by
  simp [regular]

/-- A point that fits the last segment extends it. -/
theorem update_fit {p : Profile} {mn mx : Int} {ss : List Seg} {s : Seg} {y k : Int} (hy : ¬ y < mx) (hm : s.m ≠ 0)
    (hf : Vsri.fitsSegment p { minTs := mn, maxTs := y, segs := ss ++ [s] } y = .ok true) (hk : i32op p (s.n + 1) = .ok k) :
    Vsri.update p { minTs := mn, maxTs := mx, segs := ss ++ [s] } y =
      .ok ({ minTs := mn, maxTs := y, segs := ss ++ [{ s with n := k }] }, true) := by
  unfold Vsri.update
  rw [if_neg (by exact hy)]
  dsimp only
  rw [if_neg (by simp), if_neg (by unfold Vsri.isFake; rw [current_snoc]; simpa using hm), hf, current_snoc]
  simp only [bind, Except.bind, if_true]
  rw [hk]
  simp

theorem run_regular (p : Profile) (t0 m : Int) (h0 : 0 ≤ t0) (hm : 0 < m) : ∀ (n : Nat), 2 ≤ n → (n : Int) < 2147483648 → t0 + m * ((n : Int) - 1) < 2147483648 →
    Vsri.run p .new (regular t0 m n) = .ok ({ minTs := t0, maxTs := t0 + m * ((n : Int) - 1), segs := [⟨m, 0, t0, n⟩] }, List.replicate n true) := by
  have run_snoc : ∀ (a : List Int) (y : Int) (v w u : Vsri) (rs : List Bool) (r : Bool), Vsri.run p v a = .ok (w, rs) →
      w.update p y = .ok (u, r) → Vsri.run p v (a ++ [y]) = .ok (u, rs ++ [r]) := by
    intro a
    induction a with
    | nil =>
      intro y v w u rs r h hu
      obtain ⟨rfl, rfl⟩ := Prod.mk.inj (Except.ok.inj h)
      rw [List.nil_append]; unfold Vsri.run; rw [hu]; rfl
    | cons b bs ih =>
      intro y v w u rs r h hu
      unfold Vsri.run at h
      rw [List.cons_append]; unfold Vsri.run
      cases hb : v.update p b with
      | error e => rw [hb] at h; cases h
      | ok q =>
        obtain ⟨v', r'⟩ := q
        rw [hb] at h; simp only [bind, Except.bind] at h ⊢
        cases hw : Vsri.run p v' bs with
        | error e => rw [hw] at h; cases h
        | ok q =>
          obtain ⟨a', b'⟩ := q; rw [hw] at h
          obtain ⟨rfl, rfl⟩ := Prod.mk.inj (Except.ok.inj h)
          rw [ih y v' a' u b' r hw hu]; rfl
  have rsucc : ∀ n, regular t0 m (n + 1) = regular t0 m n ++ [t0 + m * (n : Int)] := by
    intro n; simp [regular, List.range_succ]
  intro n hn
  induction n, hn using Nat.le_induction with
  | base =>
    intro _ hb
    have e : regular t0 m 2 = [t0, t0 + m] := by simp [regular, List.range_succ]
    rw [e]
    have hb' : t0 + m < 2147483648 := by have : ((2 : Nat) : Int) - 1 = 1 := rfl; rw [this] at hb; omega
    have u1 : Vsri.update p .new t0 = .ok ({ minTs := t0, maxTs := t0, segs := [⟨0, 0, t0, 1⟩] }, true) := by
      have : ¬ t0 < 0 := by omega
      simp [Vsri.update, Vsri.new, Vsri.current, Vsri.fakeSegment, i32op, InI32, bind, Except.bind, this]
    have u2 : Vsri.update p { minTs := t0, maxTs := t0, segs := [⟨0, 0, t0, 1⟩] } (t0 + m) =
        .ok ({ minTs := t0, maxTs := t0 + m, segs := [⟨m, 0, t0, 2⟩] }, true) := by
      unfold Vsri.update
      rw [if_neg (by dsimp only; omega)]
      dsimp only
      rw [if_neg (by simp), if_pos (by rfl)]
      have hg : Vsri.generateSegment p { minTs := t0, maxTs := t0 + m, segs := [⟨0, 0, t0, 1⟩] } (t0 + m) = .ok ⟨m, 0, t0, 2⟩ := by
        unfold Vsri.generateSegment
        rw [if_neg (by simp [Vsri.current])]
        have : t0 + m - ({ minTs := t0, maxTs := t0 + m, segs := [⟨0, 0, t0, 1⟩] } : Vsri).current.y0 = m := by
          simp [Vsri.current]
        rw [this, i32op_in (by unfold InI32; omega)]
        rfl
      rw [hg]
      rfl
    unfold Vsri.run; rw [u1]; simp only [bind, Except.bind]
    unfold Vsri.run; rw [u2]; simp only [bind, Except.bind, Vsri.run]
    have : t0 + m * (((2 : Nat) : Int) - 1) = t0 + m := by push_cast; ring
    rw [this]
    rfl
  | succ n hn ih =>
    intro hfew hb
    push_cast at hb
    have e1 : m * ((n : Int) + 1 - 1) = m * (n - 1) + m := by ring
    have e2 : m * ((n : Int) + 1 - 1) = m * n := by ring
    have hge : m * 1 ≤ m * ((n : Int) - 1) := Int.mul_le_mul_of_nonneg_left (by omega) hm.le
    have hn1 : 1 * (n : Int) ≤ m * n := Int.mul_le_mul_of_nonneg_right (by omega) (by omega)
    rw [rsucc, List.replicate_succ']
    refine run_snoc _ _ _ _ _ _ _ (ih (by push_cast at hfew; omega) (by omega)) ?_
    have hcur' : ({ minTs := t0, maxTs := t0 + m * (n : Int), segs := [] ++ [⟨m, 0, t0, (n : Int)⟩] } : Vsri).current = ⟨m, 0, t0, n⟩ := current_snoc _ _ _ _
    have e3 : m * ((n : Int) + 1) = m * n + m := by ring
    have hf : Vsri.fitsSegment p { minTs := t0, maxTs := t0 + m * (n : Int), segs := [] ++ [⟨m, 0, t0, (n : Int)⟩] } (t0 + m * (n : Int)) = .ok true := by
      generalize ({ minTs := t0, maxTs := t0 + m * (n : Int), segs := [] ++ [⟨m, 0, t0, (n : Int)⟩] } : Vsri) = w at hcur'
      rw [fits_exact (by rw [hcur']; exact hm) (by rw [hcur']) (by rw [hcur']; dsimp only; omega) (by rw [hcur']; dsimp only; omega)
        (by rw [hcur']; exact h0) (by rw [hcur']; dsimp only; omega) (by omega) (by rw [hcur']; dsimp only; omega)]
      rw [hcur']
      congr 1
      rw [decide_eq_true_iff]
      dsimp only
      rw [e3]
      omega
    have hk : i32op p ((n : Int) + 1) = .ok ((n : Int) + 1) := i32op_in (by unfold InI32; omega)
    have := update_fit (mx := t0 + m * ((n : Int) - 1)) (ss := []) (by omega) (by dsimp only; omega) hf hk
    have e4 : t0 + m * (((n + 1 : Nat) : Int) - 1) = t0 + m * n := by push_cast; ring
    rw [e4]
    exact this

/-- C46: regular sampling gives one segment; all timestamps come back, and sample number and time are exchanged without loss. -/
theorem C46_regular (p : Profile) (t0 m : Int) (n : Nat) (h0 : 0 ≤ t0) (hm : 0 < m) (hn : 2 ≤ n) (hfew : n < 2147483648)
    (hb : t0 + m * ((n : Int) - 1) < 2147483648) :
    ∃ v, Vsri.run p .new (regular t0 m n) = .ok (v, List.replicate n true) ∧ v.segs = [⟨m, 0, t0, n⟩] ∧
      v.allTimestamps p = .ok (regular t0 m n) ∧
      ∀ i : Nat, i < n → v.getSample p (t0 + m * i) = .ok (some (i : Int)) ∧ v.getTime p i = .ok (some (t0 + m * i)) := by
  have hge : m * 1 ≤ m * ((n : Int) - 1) := Int.mul_le_mul_of_nonneg_left (by omega) hm.le
  have hn1 : 1 * ((n : Int) - 1) ≤ m * (n - 1) := Int.mul_le_mul_of_nonneg_right (by omega) (by omega)
  have hmono : ∀ i : Nat, i < n → 0 ≤ m * (i : Int) ∧ m * (i : Int) ≤ m * ((n : Int) - 1) := fun i hi =>
    ⟨Int.mul_nonneg hm.le (Int.natCast_nonneg _), Int.mul_le_mul_of_nonneg_left (by omega) hm.le⟩
  have hst : StrictHistory (regular t0 m n) := by
    refine ⟨?_, ?_, ?_⟩
    · rw [List.pairwise_iff_getElem]
      intro i j hi hj hij
      rw [regular_get, regular_get]
      have : m * (i : Int) + m * 1 ≤ m * (j : Int) := by
        rw [← Int.mul_add]; exact Int.mul_le_mul_of_nonneg_left (by omega) hm.le
      omega
    · intro y hy
      obtain ⟨i, hi, rfl⟩ := List.getElem_of_mem hy
      rw [regular_length] at hi
      rw [regular_get]
      have := hmono i hi
      omega
    · rw [regular_length]; omega
  have hr := run_regular p t0 m h0 hm n hn (by omega) hb
  obtain ⟨I, -⟩ := run_inv hst hr
  obtain ⟨t1, -⟩ := Desc_times (p := p) I.desc hst.range
  refine ⟨_, hr, rfl, ?_, fun i hi => ⟨?_, ?_⟩⟩
  · unfold allTimestamps
    dsimp only at t1 ⊢
    rw [t1]
    simp only [bind, Except.bind, List.map_cons, List.map_nil, List.flatten_cons, List.flatten_nil, List.append_nil]
    unfold Seg.times regular
    congr 1
    simp only [Int.toNat_natCast]
    apply List.map_congr_left
    intro i _
    ring
  · obtain ⟨b1, b2⟩ := hmono i hi
    have hl : (⟨m, 0, t0, n⟩ : Seg).last = t0 + m * ((n : Int) - 1) := rfl
    have := (getSampleIn_desc (p := p) (t := t0 + m * i) (le_refl 0) I.desc hst.increasing hst.range hst.few
      (by intro s hs; obtain rfl := List.mem_singleton.1 hs; unfold Seg.Small; rw [hl]; dsimp only; omega)).1 ⟨m, 0, t0, n⟩ (by simp)
      (by unfold Seg.Spans; rw [hl]; dsimp only; omega)
    unfold getSample
    dsimp only at this ⊢
    rw [this, if_neg (by omega)]
    have e : (t0 + m * (i : Int) - t0) / m = i := by
      have : t0 + m * (i : Int) - t0 = m * i := by ring
      rw [this, Int.mul_ediv_cancel_left _ (by omega)]
    rw [e]; simp
  · obtain ⟨b1, b2⟩ := hmono i hi
    have hc := Inv_count (p := p) I
    rw [regular_length] at hc
    unfold getTime
    by_cases hz : (i : Int) = 0
    · rw [if_pos hz, hz]; simp [Vsri.min]
    · rw [if_neg hz, hc]
      simp only [bind, Except.bind]
      rw [if_neg (by omega), if_neg (by omega)]
      exact (getTimeIn_desc (p := p) (i := (i : Int)) (le_refl 0) I.desc (by have := hst.few; omega)).1 ⟨m, 0, t0, n⟩ (by simp)
        (by unfold Seg.Has; dsimp only; omega) (by unfold InI32; dsimp only; omega) (by unfold InI32; dsimp only; omega)

example : (0 : Int) ≤ 55745 ∧ (0 : Int) < 15 ∧ 2 ≤ 166 ∧ 166 < 2147483648 ∧ (55745 : Int) + 15 * ((166 : Int) - 1) < 2147483648 := by decide

end Atsc
