import Verif.Props.VsriLookup
/- Properties of the gap queries of the time index (C47, C48). -/
namespace Atsc
open Vsri

/-! ### C47 -/

theorem prevIn_at {p : Profile} {t : Int} {s : Seg} {post : List Seg} : ∀ {pre : List Seg}, (∀ a ∈ pre, a.y0 ≤ t) → t < s.y0 → InI32 (s.x0 - 1) →
    prevIn p t (pre ++ s :: post) = .ok (some (s.x0 - 1)) := by
  intro pre
  induction pre with
  | nil =>
    intro _ h hx
    rw [List.nil_append, prevIn, if_pos h, i32op_in hx]; rfl
  | cons a pre ih =>
    intro h1 h2 hx
    rw [List.cons_append, prevIn, if_neg (by have := h1 a (by simp); omega)]
    exact ih (fun b hb => h1 b (by simp [hb])) h2 hx

/-- The segment that starts with sample `i + 1`, and the earlier ones. -/
theorem segment_at {v : Vsri} {h : List Int} (I : Inv v h) {i : Nat} (hi : i + 1 < h.length) {s : Seg} (hs : s ∈ v.segs)
    (hx : s.x0 = i + 1) : ∃ pre post, v.segs = pre ++ s :: post ∧ s.y0 = h[i + 1] ∧ ∀ a ∈ pre, a.y0 ≤ h[i] := by
  obtain ⟨pre, post, hsp⟩ := List.append_of_mem hs
  refine ⟨pre, post, hsp, ?_⟩
  have d := I.desc
  rw [hsp] at d
  obtain ⟨h1, h2, rfl, d1, blk, rest, rfl, ok, d2⟩ := Desc_append.1 d
  rw [Int.zero_add] at ok
  have hl : h1.length = i + 1 := by have := ok.x0; omega
  constructor
  · rw [List.getElem_append_right (by omega), List.getElem_append_left (by have := ok.pos; omega)]
    rw [← ok.first]
    congr 1; omega
  · intro a ha
    obtain ⟨g, b, g', rfl, oka⟩ := Desc_mem d1 ha
    have hpos := oka.pos
    have e : a.y0 = ((g ++ (b ++ g')) ++ (blk ++ rest))[g.length]'(by simp; omega) := by
      rw [List.getElem_append_left (by simp; omega), List.getElem_append_right (le_refl _), List.getElem_append_left (by simpa using hpos)]
      rw [← oka.first]
      congr 1; omega
    rw [e]
    simp only [List.length_append] at hl
    by_cases hgi : g.length = i
    · subst hgi; exact le_refl _
    · exact le_of_lt (List.pairwise_iff_getElem.1 I.hist.increasing g.length i (by simp; omega) (by omega) (by omega))

/-- C47, previous sample: in every gap (between sample `i` and sample `i + 1`, the first of a segment) `get_previous_sample` is sample `i`. -/
theorem C47_previous (p : Profile) (h : List Int) (H : StrictHistory h) (v : Vsri) (rs : List Bool) (hr : Vsri.run p .new h = .ok (v, rs))
    (i : Nat) (hi : i + 1 < h.length) (s : Seg) (hs : s ∈ v.segs) (hx : s.x0 = i + 1) (t : Int) (h1 : h[i] ≤ t) (h2 : t < h[i + 1]) :
    v.getPrevious p t = .ok (some (i : Int)) := by
  obtain ⟨I, -⟩ := run_inv H hr
  obtain ⟨pre, post, hsp, hy, hpre⟩ := segment_at I hi hs hx
  have hne : h ≠ [] := by rintro rfl; simp at hi
  have hmin : v.min ≤ h[i] := by
    unfold Vsri.min
    rw [I.minTs]
    have e : h.headD 0 = h[0]'(by omega) := by
      cases h with
      | nil => exact absurd rfl hne
      | cons a l => rfl
    rw [e]
    by_cases h0 : i = 0
    · subst h0; exact le_refl _
    · exact le_of_lt (List.pairwise_iff_getElem.1 H.increasing 0 i (by omega) (by omega) (by omega))
  have hmax : h[i + 1] ≤ v.max := by
    unfold Vsri.max
    rw [I.maxTs]
    have e : h.getLastD 0 = h[h.length - 1]'(by omega) := by
      rw [List.getLastD_eq_getLast?, List.getLast?_eq_some_getLast hne]
      exact List.getLast_eq_getElem hne
    rw [e]
    by_cases h0 : i + 1 = h.length - 1
    · simp only [h0]; exact le_refl _
    · exact le_of_lt (List.pairwise_iff_getElem.1 H.increasing (i + 1) (h.length - 1) (by omega) (by omega) (by omega))
  unfold getPrevious
  rw [if_neg (by omega), if_neg (by omega), hsp]
  have hf := H.few
  rw [prevIn_at (fun a ha => by have := hpre a ha; omega) (by omega) (by unfold InI32; omega), hx]
  congr 2
  omega

/-- C47, next sample, in the last gap only: `get_next_sample` is the first sample of the last segment.  In the other gaps it is wrong
(`C47_refuted_next`). -/
theorem C47_next_last_gap (p : Profile) (h : List Int) (H : StrictHistory h) (v : Vsri) (rs : List Bool) (hr : Vsri.run p .new h = .ok (v, rs))
    (i : Nat) (hi : i + 1 < h.length) (s : Seg) (ss : List Seg) (hs : v.segs = ss ++ [s]) (hx : s.x0 = i + 1) (t : Int) (h1 : h[i] < t)
    (h2 : t < h[i + 1]) : v.getNext t = some ((i : Int) + 1) := by
  obtain ⟨I, -⟩ := run_inv H hr
  obtain ⟨-, -, -, hy, -⟩ := segment_at I hi (by rw [hs]; simp) hx
  have hne : h ≠ [] := by rintro rfl; simp at hi
  have hmin : v.min ≤ h[i] := by
    unfold Vsri.min
    rw [I.minTs]
    have e : h.headD 0 = h[0]'(by omega) := by
      cases h with
      | nil => exact absurd rfl hne
      | cons a l => rfl
    rw [e]
    by_cases h0 : i = 0
    · subst h0; exact le_refl _
    · exact le_of_lt (List.pairwise_iff_getElem.1 H.increasing 0 i (by omega) (by omega) (by omega))
  have hmax : h[i + 1] ≤ v.max := by
    unfold Vsri.max
    rw [I.maxTs]
    have e : h.getLastD 0 = h[h.length - 1]'(by omega) := by
      rw [List.getLastD_eq_getLast?, List.getLast?_eq_some_getLast hne]
      exact List.getLast_eq_getElem hne
    rw [e]
    by_cases h0 : i + 1 = h.length - 1
    · simp only [h0]; exact le_refl _
    · exact le_of_lt (List.pairwise_iff_getElem.1 H.increasing (i + 1) (h.length - 1) (by omega) (by omega) (by omega))
  unfold getNext
  rw [if_neg (by omega), if_neg (by omega), hs, List.reverse_append, List.reverse_singleton, List.singleton_append, nextIn, if_pos (by omega), hx]

/-- C47 refuted: in any gap before the last one `get_next_sample` skips to the first sample of the *last* segment, which is not the next
sample. -/
theorem C47_refuted_next (p : Profile) (h : List Int) (H : StrictHistory h) (v : Vsri) (rs : List Bool) (hr : Vsri.run p .new h = .ok (v, rs))
    (i : Nat) (hi : i + 1 < h.length) (s l : Seg) (ss : List Seg) (hs : v.segs = ss ++ [l]) (hm : s ∈ ss) (hx : s.x0 = i + 1) (t : Int)
    (h1 : h[i] < t) (h2 : t < h[i + 1]) : v.getNext t = some l.x0 ∧ (i : Int) + 1 < l.x0 := by
  obtain ⟨I, -⟩ := run_inv H hr
  obtain ⟨-, -, -, hy, -⟩ := segment_at I hi (by rw [hs]; simp [hm]) hx
  have hne : h ≠ [] := by rintro rfl; simp at hi
  have d := I.desc
  rw [hs] at d
  obtain ⟨g1, g2, hg, d1, d2⟩ := Desc_append.1 d
  rw [Int.zero_add] at d2
  have okl := Desc_single.1 d2
  obtain ⟨g, b, g', hb, oks⟩ := Desc_mem d1 hm
  rw [Int.zero_add] at oks
  have hlt : (i : Int) + 1 < l.x0 := by
    have e1 := okl.x0
    have e2 := oks.x0
    have e3 := oks.pos
    rw [e1, hb]; simp; omega
  refine ⟨?_, hlt⟩
  have hlx := okl.x0
  have hlen : g1.length < h.length := by rw [hg]; simp [okl.pos]
  have hly : l.y0 = h[g1.length] := by
    have : h[g1.length] = g2[0]'okl.pos := by
      simp only [hg]
      rw [List.getElem_append_right (le_refl _)]
      simp
    rw [this, okl.first]
  have hil : h[i + 1] < h[g1.length] := List.pairwise_iff_getElem.1 H.increasing (i + 1) g1.length hi hlen (by omega)
  have hmin : v.min ≤ h[i] := by
    unfold Vsri.min
    rw [I.minTs]
    have e : h.headD 0 = h[0]'(by omega) := by
      cases h with
      | nil => exact absurd rfl hne
      | cons a l => rfl
    rw [e]
    by_cases h0 : i = 0
    · subst h0; exact le_refl _
    · exact le_of_lt (List.pairwise_iff_getElem.1 H.increasing 0 i (by omega) (by omega) (by omega))
  have hmax : h[i + 1] ≤ v.max := by
    unfold Vsri.max
    rw [I.maxTs]
    have e : h.getLastD 0 = h[h.length - 1]'(by omega) := by
      rw [List.getLastD_eq_getLast?, List.getLast?_eq_some_getLast hne]
      exact List.getLast_eq_getElem hne
    rw [e]
    by_cases h0 : i + 1 = h.length - 1
    · simp only [h0]; exact le_refl _
    · exact le_of_lt (List.pairwise_iff_getElem.1 H.increasing (i + 1) (h.length - 1) (by omega) (by omega) (by omega))
  unfold getNext
  rw [if_neg (by omega), if_neg (by omega), hs, List.reverse_append, List.reverse_singleton, List.singleton_append, nextIn, if_pos (by omega)]

/-- C47, outside the index: before the first point the next sample is 0 and there is no previous one; from the last point on there is no next
one, and the "previous" one is the sample count — one past the last sample. -/
theorem C47_outside (p : Profile) (h : List Int) (H : StrictHistory h) (v : Vsri) (rs : List Bool) (hr : Vsri.run p .new h = .ok (v, rs))
    (t : Int) : (t < v.min → v.getNext t = some 0 ∧ v.getPrevious p t = .ok none) ∧
      (h ≠ [] → v.max ≤ t → v.getNext t = none ∧ v.getPrevious p t = .ok (some (h.length : Int))) := by
  obtain ⟨I, -⟩ := run_inv H hr
  constructor
  · intro ht
    exact ⟨by unfold getNext; rw [if_pos ht], by unfold getPrevious; rw [if_pos ht]⟩
  · intro hne ht
    have hle : v.min ≤ v.max := by
      unfold Vsri.min Vsri.max
      rw [I.minTs, I.maxTs]
      have e1 : h.headD 0 = h[0]'(List.length_pos_iff.2 hne) := by
        cases h with
        | nil => exact absurd rfl hne
        | cons a l => rfl
      have hpos := List.length_pos_iff.2 hne
      have e : h.getLastD 0 = h[h.length - 1]'(by omega) := by
        rw [List.getLastD_eq_getLast?, List.getLast?_eq_some_getLast hne]
        exact List.getLast_eq_getElem hne
      rw [e1, e]
      by_cases h0 : h.length - 1 = 0
      · simp only [h0]; exact le_refl _
      · exact le_of_lt (List.pairwise_iff_getElem.1 H.increasing 0 (h.length - 1) (by omega) (by omega) (by omega))
    refine ⟨by unfold getNext; rw [if_neg (by omega), if_pos ht], ?_⟩
    unfold getPrevious
    rw [if_neg (by omega), if_pos ht, Inv_count I]
    rfl

/-- 0 10 20 | 100 110 | 200 210: in the gap at 50 the previous sample is 2, the next one should be 3 but is 5; at 150 both are right. -/
example : okAnd (Vsri.run .debug .new [0, 10, 20, 100, 110, 200, 210]) (fun q =>
    q.1.segs = [⟨10, 0, 0, 3⟩, ⟨10, 3, 100, 2⟩, ⟨10, 5, 200, 2⟩] ∧ q.1.getPrevious .debug 50 = .ok (some 2) ∧ q.1.getNext 50 = some 5 ∧
    q.1.getPrevious .debug 150 = .ok (some 4) ∧ q.1.getNext 150 = some 5) = true := by decide

/-! ### C48 -/

/-- The closed interval `[a, b]` meets the time span of the segment. -/
def Seg.Meets (s : Seg) (a b : Int) : Prop := a ≤ s.last ∧ s.y0 ≤ b

/-- What the loop tests: `[a, b]` meets the segment other than in its very last instant. -/
def Seg.Inside (s : Seg) (a b : Int) : Prop := a < s.last ∧ s.y0 ≤ b ∧ (s.y0 ≤ a ∨ b ≠ s.last)

theorem isEmptyIn_desc {p : Profile} {a b : Int} (hab : a ≤ b) : ∀ {segs : List Seg} {x : Int} {h : List Int} {prev : Int} {k : Nat},
    Desc x segs h → h.Pairwise (· < ·) → (∀ y ∈ h, 0 ≤ y ∧ y < 2147483648) → h.length < 2147483648 →
    (isEmptyIn p a b prev k segs = .ok false ∧ ∃ s ∈ segs, s.Inside a b) ∨
      (isEmptyIn p a b prev k segs = .ok true ∧ ∀ s ∈ segs, ¬ s.Inside a b) := by
  intro segs
  induction segs with
  | nil => intro x h prev k _ _ _ _; right; exact ⟨rfl, by simp⟩
  | cons s ss ih =>
    intro x h prev k d H hr hl
    have sep := Desc_sep d H
    obtain ⟨blk, rest, rfl, ok, d'⟩ := d
    have he := segEnd_ok (p := p) ok (fun y hy => hr y (List.mem_append_left _ hy)) (by simp at hl; omega)
    have hle := ok.last_le.1
    have key : isEmptyIn p a b prev k (s :: ss) = (if k ≥ 1 ∧ (a > prev ∧ b < s.y0) then .ok true
        else if (a ≥ s.y0 ∧ a < s.last) ∨ (b < s.last ∧ b ≥ s.y0) then .ok false
        else if a < s.y0 ∧ b > s.last then .ok false
        else isEmptyIn p a b s.last (k + 1) ss) := by
      rw [isEmptyIn, he]; rfl
    rw [key]
    by_cases c1 : k ≥ 1 ∧ (a > prev ∧ b < s.y0)
    · rw [if_pos c1]
      right
      refine ⟨rfl, fun u hu hin => ?_⟩
      unfold Seg.Inside at hin
      rcases List.mem_cons.1 hu with rfl | hu
      · omega
      · have := sep u hu; omega
    · rw [if_neg c1]
      by_cases c2 : (a ≥ s.y0 ∧ a < s.last) ∨ (b < s.last ∧ b ≥ s.y0)
      · rw [if_pos c2]; left
        exact ⟨rfl, s, by simp, by unfold Seg.Inside; omega⟩
      · rw [if_neg c2]
        by_cases c3 : a < s.y0 ∧ b > s.last
        · rw [if_pos c3]; left
          exact ⟨rfl, s, by simp, by unfold Seg.Inside; omega⟩
        · rw [if_neg c3]
          have hs : ¬ s.Inside a b := by unfold Seg.Inside; omega
          rcases ih (prev := s.last) (k := k + 1) d' (List.pairwise_append.1 H).2.1 (fun y hy => hr y (List.mem_append_right _ hy))
            (by simp at hl; omega) with ⟨q1, u, hu, q2⟩ | ⟨q1, q2⟩
          · left; exact ⟨q1, u, by simp [hu], q2⟩
          · right
            refine ⟨q1, fun u hu => ?_⟩
            rcases List.mem_cons.1 hu with rfl | hu
            · exact hs
            · exact q2 u hu

theorem min_le_max {p : Profile} {h : List Int} {v : Vsri} {rs : List Bool} (hr : Vsri.run p .new h = .ok (v, rs)) : v.min ≤ v.max := by
  obtain ⟨-, h1, h2, h3⟩ := C41_extremes p h v rs hr
  rw [h1, h2]
  cases hl : acceptedPoints h rs with
  | nil => exact le_refl _
  | cons a l =>
    rw [hl] at h3
    have hne : a :: l ≠ [] := by simp
    have e : (a :: l).getLastD 0 = (a :: l).getLast hne := by rw [List.getLastD_eq_getLast?, List.getLast?_eq_some_getLast hne]; rfl
    rw [e]
    rcases List.mem_cons.1 (List.getLast_mem hne) with q | q
    · rw [q]; exact le_refl _
    · exact (List.pairwise_cons.1 h3).1 _ q

/-- C48 for an index of one segment, whatever the history: the interval is empty exactly when it does not meet the time from the first to the last
point. -/
theorem C48_one_segment (p : Profile) (h : List Int) (v : Vsri) (rs : List Bool) (hr : Vsri.run p .new h = .ok (v, rs))
    (h1 : v.segs.length = 1) (a b : Int) (hab : a ≤ b) :
    ∃ r, v.isEmpty p a b = .ok r ∧ (r = false ↔ a ≤ v.max ∧ v.min ≤ b) := by
  have hle := min_le_max hr
  unfold isEmpty
  rw [if_pos h1]
  by_cases c1 : (a ≥ v.min ∧ a ≤ v.max) ∨ (b ≤ v.max ∧ b ≥ v.min)
  · rw [if_pos c1]; exact ⟨false, rfl, by simp only [true_iff]; omega⟩
  · rw [if_neg c1]
    by_cases c2 : a < v.min ∧ b > v.max
    · rw [if_pos c2]; exact ⟨false, rfl, by simp only [true_iff]; omega⟩
    · rw [if_neg c2]; exact ⟨true, rfl, by simp only [Bool.true_eq_false, false_iff]; omega⟩

/-- C48 for an index of several (or no) segments, the exact behaviour: `is_empty` never panics and is false exactly when the interval meets a
segment in more than the segment's last instant.  That every meeting counts fails at that instant (`C48_refuted_touch`). -/
theorem C48_segments (p : Profile) (h : List Int) (H : StrictHistory h) (v : Vsri) (rs : List Bool)
    (hr : Vsri.run p .new h = .ok (v, rs)) (hn : v.segs.length ≠ 1) (a b : Int) (hab : a ≤ b) :
    (v.isEmpty p a b = .ok false ↔ ∃ s ∈ v.segs, s.Inside a b) ∧ (v.isEmpty p a b = .ok true ↔ ∀ s ∈ v.segs, ¬ s.Inside a b) := by
  obtain ⟨I, -⟩ := run_inv H hr
  unfold isEmpty
  rw [if_neg hn]
  rcases isEmptyIn_desc (p := p) hab (prev := 0) (k := 0) I.desc H.increasing H.range H.few with ⟨q1, u, hu, q2⟩ | ⟨q1, q2⟩
  · rw [q1]
    refine ⟨⟨fun _ => ⟨u, hu, q2⟩, fun _ => rfl⟩, ⟨fun h => by simp at h, fun h => absurd q2 (h u hu)⟩⟩
  · rw [q1]
    refine ⟨⟨fun h => by simp at h, fun ⟨u, hu, h⟩ => absurd h (q2 u hu)⟩, ⟨fun _ => q2, fun _ => rfl⟩⟩

/-- C48: "not empty" is never wrong: the interval does meet the time from the first to the last point of some segment. -/
theorem C48_not_empty_sound (p : Profile) (h : List Int) (H : StrictHistory h) (v : Vsri) (rs : List Bool)
    (hr : Vsri.run p .new h = .ok (v, rs)) (a b : Int) (hab : a ≤ b) (he : v.isEmpty p a b = .ok false) :
    (∃ s ∈ v.segs, s.Meets a b) ∨ (v.segs.length = 1 ∧ a ≤ v.max ∧ v.min ≤ b) := by
  by_cases hn : v.segs.length = 1
  · right
    obtain ⟨r, q1, q2⟩ := C48_one_segment p h v rs hr hn a b hab
    rw [q1] at he
    have := q2.1 (Except.ok.inj he)
    exact ⟨hn, this⟩
  · left
    obtain ⟨s, hs, hin⟩ := (C48_segments p h H v rs hr hn a b hab).1.1 he
    exact ⟨s, hs, by unfold Seg.Inside at hin; unfold Seg.Meets; omega⟩

/-- C48 refuted: in an index of several segments the instant of the last sample of any segment is reported empty, although the segment (and a
sample, for a regular segment) is there. -/
theorem C48_refuted_touch (p : Profile) (h : List Int) (H : StrictHistory h) (v : Vsri) (rs : List Bool)
    (hr : Vsri.run p .new h = .ok (v, rs)) (hn : v.segs.length ≠ 1) (s : Seg) (hs : s ∈ v.segs) :
    s.Meets s.last s.last ∧ v.isEmpty p s.last s.last = .ok true := by
  obtain ⟨I, -⟩ := run_inv H hr
  obtain ⟨g, blk, g', -, ok⟩ := Desc_mem I.desc hs
  have hle := ok.last_le.1
  refine ⟨⟨le_refl _, hle⟩, (C48_segments p h H v rs hr hn _ _ (le_refl _)).2.2 fun u hu hin => ?_⟩
  -- only `s` itself could contain its own last instant
  have sepall : ∀ {segs : List Seg} {x : Int} {h : List Int}, Desc x segs h → h.Pairwise (· < ·) → ∀ a ∈ segs, ∀ b ∈ segs,
      a = b ∨ a.last < b.y0 ∨ b.last < a.y0 := by
    intro segs
    induction segs with
    | nil => intro x h _ _ a ha; simp at ha
    | cons c cs ih =>
      intro x h d H a ha b hb
      have sep := Desc_sep d H
      obtain ⟨bk, rest, rfl, okc, d'⟩ := d
      rcases List.mem_cons.1 ha with ha | ha
      · rcases List.mem_cons.1 hb with hb | hb
        · left; rw [ha, hb]
        · right; left; rw [ha]; exact sep b hb
      · rcases List.mem_cons.1 hb with hb | hb
        · right; right; rw [hb]; exact sep a ha
        · exact ih d' (List.pairwise_append.1 H).2.1 a ha b hb
  unfold Seg.Inside at hin
  rcases sepall I.desc H.increasing s hs u hu with rfl | h1 | h1
  · omega
  · omega
  · omega

example : okAnd (Vsri.run .debug .new [0, 10, 25]) (fun q => q.1.segs.length = 1 ∧ q.1.isEmpty .debug 22 30 = .ok false ∧
    q.1.isEmpty .debug 26 30 = .ok true) = true := by decide
example : okAnd (Vsri.run .debug .new [0, 10, 100, 110]) (fun q => q.1.isEmpty .debug 10 20 = .ok true ∧ q.1.isEmpty .debug 9 20 = .ok false ∧
    q.1.isEmpty .debug 11 99 = .ok true ∧ q.1.isEmpty .debug 50 200 = .ok false) = true := by decide

end Atsc
