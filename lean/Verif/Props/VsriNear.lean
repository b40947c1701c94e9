import Verif.Props.VsriGaps
/- C76: `get_this_or_previous` and `get_this_or_next`. -/
namespace Atsc
open Vsri

/-- Entry `k` is the last of the timestamps that is not later than `t`. -/
def LastNotAfter (ts : List Int) (t : Int) (k : Nat) : Prop :=
  ∃ hk : k < ts.length, ts[k] ≤ t ∧ ∀ j (hj : j < ts.length), k < j → t < ts[j]

/-- Entry `k` is the first of the timestamps that is not earlier than `t`. -/
def FirstNotBefore (ts : List Int) (t : Int) (k : Nat) : Prop :=
  ∃ hk : k < ts.length, t ≤ ts[k] ∧ ∀ j (hj : j < ts.length), j < k → ts[j] < t

theorem Desc_has_unique {i : Int} : ∀ {segs : List Seg} {x : Int} {h : List Int}, Desc x segs h →
    ∀ s ∈ segs, ∀ s' ∈ segs, s.Has i → s'.Has i → s = s' := by
  intro segs
  induction segs with
  | nil => intro x h _ s hs; cases hs
  | cons a ss ih =>
    rintro x h ⟨blk, rest, rfl, ok, d⟩ s hs s' hs' h1 h2
    have key : ∀ u ∈ ss, a.Has i → u.Has i → False := by
      intro u hu ha hu'
      obtain ⟨g, b, g', -, oku⟩ := Desc_mem d hu
      unfold Seg.Has at ha hu'
      have := ok.x0; have := ok.n; have := oku.x0
      omega
    rcases List.mem_cons.1 hs with e1 | e1
    · rcases List.mem_cons.1 hs' with e2 | e2
      · rw [e1, e2]
      · subst e1; exact absurd h2 (key _ e2 h1)
    · rcases List.mem_cons.1 hs' with e2 | e2
      · subst e2; exact absurd h1 (key _ e1 h2)
      · exact ih d s e1 s' e2 h1 h2

/-- The facts about reconstructed timestamps used below. -/
structure Times (v : Vsri) (h ts : List Int) : Prop where
  len : ts.length = h.length
  le : ∀ (i : Nat) (h1 : i < ts.length) (h2 : i < h.length), ts[i] ≤ h[i]
  cover : ∀ (i : Nat), i < ts.length → ∃ s ∈ v.segs, s.Has i
  formula : ∀ (i : Nat) (h1 : i < ts.length), ∀ s ∈ v.segs, s.Has i → ts[i] = s.y0 + s.m * (i - s.x0)

theorem times_of {p : Profile} {v : Vsri} {h : List Int} (I : Inv v h) : ∃ ts, v.allTimestamps p = .ok ts ∧ Times v h ts := by
  obtain ⟨t1, t2, t3⟩ := Desc_times (p := p) I.desc I.hist.range
  refine ⟨(v.segs.map Seg.times).flatten, by unfold allTimestamps; rw [t1]; rfl, ⟨t2, fun i h1 h2 => (t3 i h1 h2).1, fun i h1 => ?_, fun i h1 s hs hh => ?_⟩⟩
  · obtain ⟨-, s, b, c, -⟩ := t3 i h1 (by omega)
    exact ⟨s, b, by rwa [Int.zero_add] at c⟩
  · obtain ⟨-, s', b, c, e, -⟩ := t3 i h1 (by omega)
    rw [Int.zero_add] at c e
    obtain rfl := Desc_has_unique I.desc s hs s' b hh c
    exact e

/-- A segment of several samples has a positive step; a segment other than the last has several samples. -/
theorem seg_step {v : Vsri} {h : List Int} (I : Inv v h) {s : Seg} (hs : s ∈ v.segs) {i j : Nat} (h1 : s.Has i) (h2 : s.Has j) (hij : i < j) : 0 < s.m := by
  obtain ⟨g, b, g', -, ok⟩ := Desc_mem I.desc hs
  rcases ok.kind with ⟨k1, _⟩ | ⟨_, k2⟩
  · have := ok.n
    unfold Seg.Has at h1 h2
    omega
  · exact k2

theorem times_lt {v : Vsri} {h ts : List Int} (I : Inv v h) (T : Times v h ts) : ∀ (i j : Nat) (hi : i < ts.length) (hj : j < ts.length), i < j →
    ts[i] < ts[j] := by
  intro i j hi hj hij
  have hl := T.len
  obtain ⟨s, hs, hh⟩ := T.cover j hj
  have fj := T.formula j hj s hs hh
  by_cases hi' : s.Has i
  · have fi := T.formula i hi s hs hi'
    have hm := seg_step I hs hi' hh hij
    have : s.m * (i - s.x0) < s.m * (j - s.x0) := Int.mul_lt_mul_of_pos_left (by omega) hm
    omega
  · obtain ⟨g, b, g', hg, ok⟩ := Desc_mem I.desc hs
    rw [Int.zero_add] at ok
    have e0 := ok.x0
    have hpos := ok.pos
    have hxi : (i : Int) < s.x0 := by
      unfold Seg.Has at hi' hh; omega
    have hgl : g.length < h.length := by rw [hg]; simp; omega
    have e1 : s.y0 = h[g.length] := by
      subst hg
      rw [List.getElem_append_right (le_refl _), List.getElem_append_left (by simpa using hpos), ← ok.first]
      congr 1; omega
    have l1 := T.le i hi (by omega)
    have l2 := List.pairwise_iff_getElem.1 I.hist.increasing i g.length (by omega) hgl (by omega)
    have : 0 ≤ s.m * (j - s.x0) := Int.mul_nonneg ok.m_nonneg (by unfold Seg.Has at hh; omega)
    omega

theorem getPrevious_ok {p : Profile} {v : Vsri} {h : List Int} (I : Inv v h) (t : Int) : ∃ r, v.getPrevious p t = .ok r := by
  unfold getPrevious
  by_cases h1 : t < v.min
  · exact ⟨_, by rw [if_pos h1]⟩
  rw [if_neg h1]
  by_cases h2 : t ≥ v.max
  · exact ⟨_, by rw [if_pos h2, Inv_count I]; rfl⟩
  rw [if_neg h2]
  have : ∀ segs : List Seg, (∀ s ∈ segs, 0 ≤ s.x0 ∧ s.x0 < 2147483648) → ∃ r, prevIn p t segs = .ok r := by
    intro segs
    induction segs with
    | nil => exact fun _ => ⟨_, rfl⟩
    | cons s ss ih =>
      intro hx
      rw [prevIn]
      by_cases h3 : t < s.y0
      · rw [if_pos h3, i32op_in (by have := hx s (by simp); unfold InI32; omega)]; exact ⟨_, rfl⟩
      · rw [if_neg h3]; exact ih fun u hu => hx u (by simp [hu])
  refine this _ fun s hs => ?_
  obtain ⟨g, b, g', hg, ok⟩ := Desc_mem I.desc hs
  have := ok.x0
  have hf := I.hist.few
  have : g.length ≤ h.length := by rw [hg]; simp
  omega

/-- The sample found inside a segment. -/
theorem slot {m y0 x0 t : Int} {k : Nat} (hm : 0 < m) (h1 : y0 + m * (k - x0) ≤ t) (h2 : t < y0 + m * (k + 1 - x0)) : x0 + (t - y0) / m = k := by
  have : (t - y0) / m = k - x0 := by
    refine Int.ediv_eq_iff_of_pos hm |>.2 ⟨?_, ?_⟩
    · rw [Int.mul_comm]; omega
    · have : m * (k + 1 - x0) = (k - x0) * m + m := by ring
      omega
  omega

/-- The last timestamp not after `t`, when there is one. -/
theorem exists_last {ts : List Int} {t : Int} (h0 : ∃ hk : 0 < ts.length, ts[0] ≤ t) (hmono : ∀ (i j : Nat) (hi : i < ts.length) (hj : j < ts.length), i < j → ts[i] < ts[j]) :
    ∃ k, LastNotAfter ts t k := by
  obtain ⟨hk0, h00⟩ := h0
  have hex : ∃ n, n < ts.length ∧ ∃ hn : ts.length - 1 - n < ts.length, ts[ts.length - 1 - n] ≤ t :=
    ⟨ts.length - 1, by omega, by omega, by simpa using h00⟩
  classical
  obtain ⟨h1, h2, h3⟩ := Nat.find_spec hex
  refine ⟨ts.length - 1 - Nat.find hex, h2, h3, fun j hj hlt => ?_⟩
  by_contra hc
  have := Nat.find_min hex (m := ts.length - 1 - j) (by omega)
  apply this
  refine ⟨by omega, by omega, ?_⟩
  have e : ts.length - 1 - (ts.length - 1 - j) = j := by omega
  simp only [e]
  omega

/-- **C76**, this or previous: from the first point on and before the last reconstructed timestamp, `get_this_or_previous(t)` is the number of the
last sample whose timestamp (as `get_all_timestamps` reports it) is not after `t`.  At every other time: `C76_previous_exact`; see also `C76_refuted_tail` and
`C76_refuted_after`. -/
theorem C76_previous_inside (p : Profile) (h : List Int) (H : DayHistory h) (v : Vsri) (rs : List Bool) (hr : Vsri.run p .new h = .ok (v, rs))
    (ts : List Int) (hts : v.allTimestamps p = .ok ts) (t : Int) (hmin : v.min ≤ t) (hlast : ∃ y ∈ ts, t < y) :
    ∃ k : Nat, v.thisOrPrevious p t = .ok (some (k : Int)) ∧ LastNotAfter ts t k := by
  obtain ⟨I, -⟩ := run_inv H.strict hr
  obtain ⟨ts', ht', T⟩ := times_of (p := p) I
  rw [hts] at ht'
  obtain rfl := Except.ok.inj ht'
  have hmono := times_lt I T
  have hl := T.len
  obtain ⟨y, hy, hty⟩ := hlast
  obtain ⟨jy, hjy, rfl⟩ := List.getElem_of_mem hy
  have hne : h ≠ [] := by rintro rfl; rw [List.length_nil] at hl; omega
  have h0 : ts[0]'(by omega) ≤ t := by
    have := T.le 0 (by omega) (by omega)
    have e : v.min = h[0]'(by omega) := by
      unfold Vsri.min; rw [I.minTs]
      cases h with
      | nil => exact absurd rfl hne
      | cons a l => rfl
    omega
  obtain ⟨k, hk, hk1, hk2⟩ := exists_last ⟨by omega, h0⟩ hmono
  refine ⟨k, ?_, hk, hk1, hk2⟩
  have hkj : k < jy := by
    by_contra hc
    rcases Nat.lt_or_ge jy k with h1 | h1
    · have := hmono jy k hjy hk h1; omega
    · have : jy = k := by omega
      subst this; omega
  have hk' : k + 1 < ts.length := by omega
  have ht2 := hk2 (k + 1) hk' (by omega)
  obtain ⟨s, hs, hh⟩ := T.cover k hk
  have fk := T.formula k hk s hs hh
  obtain ⟨r, hprev⟩ := getPrevious_ok (p := p) I t
  have L := C44_lookup p h H v rs hr t
  have hspan : ∀ u ∈ v.segs, u.Spans t → v.getSample p t = .ok (some (k : Int)) := by
    intro u hu hsp
    obtain ⟨g, b, g', hg, ok⟩ := Desc_mem I.desc hu
    rw [Int.zero_add] at ok
    have e0 := ok.x0
    have en := ok.n
    have hpos := ok.pos
    have hgl : g.length + b.length ≤ h.length := by rw [hg]; simp
    -- the first and last samples of `u`
    have f1 := T.formula g.length (by omega) u hu (by unfold Seg.Has; omega)
    have f2 := T.formula (g.length + b.length - 1) (by omega) u hu (by unfold Seg.Has; omega)
    have hx1 : u.m * ((g.length : Int) - u.x0) = 0 := by rw [e0]; simp
    have hx2 : ts[g.length + b.length - 1]'(by omega) = u.last := by
      rw [f2]; unfold Seg.last
      congr 2
      omega
    unfold Seg.Spans at hsp
    have hk3 : g.length ≤ k := by
      by_contra hc
      have := hk2 g.length (by omega) (by omega)
      omega
    have hk4 : k ≤ g.length + b.length - 1 := by
      by_contra hc
      have := hmono (g.length + b.length - 1) k (by omega) hk (by omega)
      omega
    have hhu : u.Has k := by unfold Seg.Has; omega
    obtain rfl := Desc_has_unique I.desc u hu s hs hhu hh
    by_cases hn1 : u.n = 1
    · -- a one-sample segment is the last one
      exfalso
      obtain ⟨w, hw, hhw⟩ := T.cover (k + 1) hk'
      have hne' : w ≠ u := by
        rintro rfl
        unfold Seg.Has at hhw hhu; omega
      have hm0 : u.m = 0 := by
        rcases ok.kind with ⟨_, k2⟩ | ⟨k1, _⟩
        · exact k2
        · omega
      have hmem : u ∈ v.segs.dropLast := by
        obtain ⟨pre, post, hsp2⟩ := List.append_of_mem hu
        cases hpost : post with
        | nil =>
          exfalso
          rw [hpost] at hsp2
          rw [hsp2] at hw
          rcases List.mem_append.1 hw with hw' | hw'
          · have d := I.desc
            rw [hsp2] at d
            obtain ⟨q1, q2, hq, d1, d2⟩ := Desc_append.1 d
            rw [Int.zero_add] at d2
            have okl := Desc_single.1 d2
            obtain ⟨g1, b1, g1', hb1, okw⟩ := Desc_mem d1 hw'
            have := okw.x0; have := okw.n; have := okl.x0
            have : g1.length + b1.length ≤ q1.length := by rw [hb1]; simp
            unfold Seg.Has at hhw hhu
            omega
          · simp at hw'; exact hne' hw'
        | cons c cs =>
          rw [hsp2, hpost, List.dropLast_append_of_ne_nil (by simp), List.dropLast_cons_of_ne_nil (by simp)]
          simp
      have := I.full u hmem
      omega
    · rw [L.1 u hu ⟨hsp.1, hsp.2⟩ hn1]
      have hm : 0 < u.m := by
        rcases ok.kind with ⟨k1, _⟩ | ⟨_, k2⟩
        · exfalso; apply hn1; rw [en, k1]; rfl
        · exact k2
      have hup : t < u.y0 + u.m * ((k : Int) + 1 - u.x0) := by
        by_cases hh1 : u.Has ((k + 1 : Nat) : Int)
        · have := T.formula (k + 1) hk' u hu hh1
          push_cast at this
          omega
        · have hkl : k = g.length + b.length - 1 := by
            unfold Seg.Has at hh1 hhu; omega
          have : u.last = u.y0 + u.m * ((k : Int) - u.x0) := by
            unfold Seg.last; congr 2; omega
          have e2 : u.m * ((k : Int) + 1 - u.x0) = u.m * ((k : Int) - u.x0) + u.m := by ring
          omega
      rw [slot hm (by omega) hup]
  by_cases hsp : ∃ u ∈ v.segs, u.Spans t
  · obtain ⟨u, hu, hu2⟩ := hsp
    unfold thisOrPrevious
    rw [hspan u hu hu2, hprev]
    rfl
  · have hno : ∀ u ∈ v.segs, ¬ u.Spans t := fun u hu hu2 => hsp ⟨u, hu, hu2⟩
    unfold thisOrPrevious
    rw [L.2.2 hno]
    -- the next sample starts a segment
    obtain ⟨w, hw, hhw⟩ := T.cover (k + 1) hk'
    have fw := T.formula (k + 1) hk' w hw hhw
    push_cast at fw hhw
    have hw0 : w.x0 = (k : Int) + 1 := by
      by_contra hc
      have hwk : w.Has k := by unfold Seg.Has at hhw ⊢; omega
      have fw' := T.formula k hk w hw hwk
      refine hno w hw ⟨?_, ?_⟩
      · obtain ⟨g, b, g', hg, ok⟩ := Desc_mem I.desc hw
        have : 0 ≤ w.m * ((k : Int) - w.x0) := Int.mul_nonneg ok.m_nonneg (by unfold Seg.Has at hwk; omega)
        omega
      · obtain ⟨g, b, g', hg, ok⟩ := Desc_mem I.desc hw
        have : w.m * ((k : Int) + 1 - w.x0) ≤ w.m * (w.n - 1) := Int.mul_le_mul_of_nonneg_left (by unfold Seg.Has at hhw; omega) ok.m_nonneg
        unfold Seg.last
        omega
    obtain ⟨pre, post, hsp2, hy0, hpre⟩ := segment_at I (i := k) (by omega) hw hw0
    have hy1 : w.y0 = ts[k + 1] := by rw [fw, hw0]; simp
    have hmax : ts[k + 1] ≤ v.max := by
      have l1 := T.le (k + 1) hk' (by omega)
      unfold Vsri.max
      rw [I.maxTs]
      have e : h.getLastD 0 = h[h.length - 1]'(by omega) := by
        rw [List.getLastD_eq_getLast?, List.getLast?_eq_some_getLast hne]
        exact List.getLast_eq_getElem hne
      rw [e]
      by_cases h0 : k + 1 = h.length - 1
      · simp only [← h0]; exact l1
      · have := List.pairwise_iff_getElem.1 H.increasing (k + 1) (h.length - 1) (by omega) (by omega) (by omega)
        omega
    have hpre' : ∀ a ∈ pre, a.y0 ≤ t := by
      intro a ha
      have d := I.desc
      rw [hsp2] at d
      obtain ⟨q1, q2, hq, d1, d2⟩ := Desc_append.1 d
      obtain ⟨g, b, g', hg, ok⟩ := Desc_mem d1 ha
      rw [Int.zero_add] at ok
      have e0 := ok.x0
      have hpos := ok.pos
      have en := ok.n
      obtain ⟨bw, rw', hbw, okw, -⟩ := d2
      have exw := okw.x0
      rw [Int.zero_add] at exw
      have hlq : g.length + b.length ≤ q1.length := by rw [hg]; simp
      have fa := T.formula g.length (by omega) a (by rw [hsp2]; simp [ha]) (by unfold Seg.Has; omega)
      have hx1 : a.m * ((g.length : Int) - a.x0) = 0 := by rw [e0]; simp
      by_cases hgk : g.length = k
      · simp only [hgk] at fa; rw [hgk] at hx1; omega
      · have := hmono g.length k (by omega) hk (by omega)
        omega
    have hgp : v.getPrevious p t = .ok (some (k : Int)) := by
      unfold getPrevious
      rw [if_neg (by omega), if_neg (by omega), hsp2]
      have hf := I.hist.few
      rw [prevIn_at hpre' (by omega) (by unfold InI32; omega), hw0]
      congr 2
      omega
    rw [hgp]
    rfl

/-- A lookup inside a segment of several samples. -/
theorem lookup_slot {p : Profile} {h : List Int} (H : DayHistory h) {v : Vsri} {rs : List Bool} (hr : Vsri.run p .new h = .ok (v, rs)) (I : Inv v h)
    {ts : List Int} (T : Times v h ts) {k : Nat} (hk : k < ts.length) {s : Seg} (hs : s ∈ v.segs) (hh : s.Has k) (hn : s.n ≠ 1) {t : Int} (h1 : ts[k] ≤ t)
    (h2 : t < ts[k] + s.m) (h3 : t ≤ s.last) : v.getSample p t = .ok (some (k : Int)) := by
  obtain ⟨g, b, g', hg, ok⟩ := Desc_mem I.desc hs
  have hm : 0 < s.m := by
    rcases ok.kind with ⟨k1, _⟩ | ⟨_, k2⟩
    · exfalso; apply hn; rw [ok.n, k1]; rfl
    · exact k2
  have fk := T.formula k hk s hs hh
  have h0 : 0 ≤ s.m * ((k : Int) - s.x0) := Int.mul_nonneg ok.m_nonneg (by unfold Seg.Has at hh; omega)
  have e2 : s.m * ((k : Int) + 1 - s.x0) = s.m * ((k : Int) - s.x0) + s.m := by ring
  rw [(C44_lookup p h H v rs hr t).1 s hs ⟨by omega, h3⟩ hn, slot (k := k) hm (by omega) (by omega)]

/-- **C76**, this or next: before the first point it is sample 0, and at a timestamp the index reports it is that sample (unless that segment has one
sample: then the lookup panics, `C44_refuted_single`).  All other times: `C76_next_exact`. -/
theorem C76_next_reported (p : Profile) (h : List Int) (H : DayHistory h) (v : Vsri) (rs : List Bool) (hr : Vsri.run p .new h = .ok (v, rs))
    (ts : List Int) (hts : v.allTimestamps p = .ok ts) (t : Int) :
    (h ≠ [] → t < v.min → v.thisOrNext p t = .ok (some 0) ∧ FirstNotBefore ts t 0) ∧
    (∀ (k : Nat) (hk : k < ts.length), ∀ s ∈ v.segs, s.Has k → s.n ≠ 1 → v.thisOrNext p ts[k] = .ok (some (k : Int)) ∧ FirstNotBefore ts ts[k] k) := by
  obtain ⟨I, -⟩ := run_inv H.strict hr
  obtain ⟨ts', ht', T⟩ := times_of (p := p) I
  rw [hts] at ht'
  obtain rfl := Except.ok.inj ht'
  have hmono := times_lt I T
  have hl := T.len
  constructor
  · intro hne ht
    have hpos := List.length_pos_iff.2 hne
    have e : v.min = h[0] := by
      unfold Vsri.min; rw [I.minTs]
      cases h with
      | nil => exact absurd rfl hne
      | cons a l => rfl
    have hy : ∀ s ∈ v.segs, v.min ≤ s.y0 := by
      intro s hs
      obtain ⟨g, b, g', hg, ok⟩ := Desc_mem I.desc hs
      have hp := ok.pos
      have hgl : g.length < h.length := by rw [hg]; simp; omega
      have e1 : s.y0 = h[g.length] := by
        subst hg
        rw [List.getElem_append_right (le_refl _), List.getElem_append_left (by simpa using hp), ← ok.first]
        congr 1; omega
      rw [e, e1]
      by_cases h0 : g.length = 0
      · simp only [h0]; exact le_refl _
      · exact le_of_lt (List.pairwise_iff_getElem.1 H.increasing 0 g.length (by omega) hgl (by omega))
    constructor
    · unfold thisOrNext
      rw [(C44_lookup p h H v rs hr t).2.2 (fun s hs hsp => by have := hy s hs; have := hsp.1; omega)]
      show Except.ok (v.getNext t) = _
      rw [((C47_outside p h H.strict v rs hr t).1 ht).1]
    · refine ⟨by omega, ?_, fun j hj hlt => by omega⟩
      obtain ⟨s, hs, hh⟩ := T.cover 0 (by omega)
      have f := T.formula 0 (by omega) s hs hh
      obtain ⟨g, b, g', hg, ok⟩ := Desc_mem I.desc hs
      have : 0 ≤ s.m * (((0 : Nat) : Int) - s.x0) := Int.mul_nonneg ok.m_nonneg (by unfold Seg.Has at hh; omega)
      have := hy s hs
      omega
  · intro k hk s hs hh hn
    obtain ⟨g, b, g', hg, ok⟩ := Desc_mem I.desc hs
    have hm : 0 < s.m := by
      rcases ok.kind with ⟨k1, _⟩ | ⟨_, k2⟩
      · exfalso; apply hn; rw [ok.n, k1]; rfl
      · exact k2
    have f := T.formula k hk s hs hh
    have hle : ts[k] ≤ s.last := by
      have : s.m * ((k : Int) - s.x0) ≤ s.m * (s.n - 1) := Int.mul_le_mul_of_nonneg_left (by unfold Seg.Has at hh; omega) ok.m_nonneg
      unfold Seg.last; omega
    constructor
    · unfold thisOrNext
      rw [lookup_slot H hr I T hk hs hh hn (le_refl _) (by omega) hle]
      rfl
    · exact ⟨hk, le_refl _, fun j hj hlt => hmono j k hj hk hlt⟩

/-- C76 refuted: strictly between two samples of a segment "this or next" is the *previous* sample. -/
theorem C76_refuted_next (p : Profile) (h : List Int) (H : DayHistory h) (v : Vsri) (rs : List Bool) (hr : Vsri.run p .new h = .ok (v, rs))
    (ts : List Int) (hts : v.allTimestamps p = .ok ts) (k : Nat) (hk : k + 1 < ts.length) (s : Seg) (hs : s ∈ v.segs) (h1 : s.Has k) (h2 : s.Has (k + 1))
    (t : Int) (ht : ts[k] < t) (ht' : t < ts[k + 1]) : v.thisOrNext p t = .ok (some (k : Int)) ∧ ¬ FirstNotBefore ts t k ∧ FirstNotBefore ts t (k + 1) := by
  obtain ⟨I, -⟩ := run_inv H.strict hr
  obtain ⟨ts', ht'', T⟩ := times_of (p := p) I
  rw [hts] at ht''
  obtain rfl := Except.ok.inj ht''
  have hmono := times_lt I T
  have f1 := T.formula k (by omega) s hs h1
  have f2 := T.formula (k + 1) hk s hs (by push_cast; exact h2)
  push_cast at f2
  have e2 : s.m * ((k : Int) + 1 - s.x0) = s.m * ((k : Int) - s.x0) + s.m := by ring
  obtain ⟨g, b, g', hg, ok⟩ := Desc_mem I.desc hs
  have hle : t ≤ s.last := by
    have : s.m * ((k : Int) + 1 - s.x0) ≤ s.m * (s.n - 1) := Int.mul_le_mul_of_nonneg_left (by unfold Seg.Has at h2; omega) ok.m_nonneg
    unfold Seg.last; omega
  refine ⟨?_, ?_, ?_⟩
  · unfold thisOrNext
    rw [lookup_slot H hr I T (by omega) hs h1 (by unfold Seg.Has at h1 h2; omega) (by omega) (by omega) hle]
    rfl
  · rintro ⟨_, h9, _⟩; omega
  · refine ⟨hk, by omega, fun j hj hlt => ?_⟩
    by_cases hjk : j = k
    · subst hjk; exact ht
    · have := hmono j k hj (by omega) (by omega); omega

/-- C76 refuted: after the last reconstructed timestamp but before the real last point there is no "previous" sample: 0, 10, 25 at 22. -/
theorem C76_refuted_tail (p : Profile) : okAnd (Vsri.run p .new [0, 10, 25]) (fun q => q.1.allTimestamps p = .ok [0, 10, 20] ∧
    q.1.thisOrPrevious p 22 = .ok none) = true := by cases p <;> decide

/-- C76 refuted: after the last point "this or previous" is the number of samples, one past the last sample: 0, 10, 20 at 25. -/
theorem C76_refuted_after (p : Profile) : okAnd (Vsri.run p .new [0, 10, 20]) (fun q => q.1.allTimestamps p = .ok [0, 10, 20] ∧
    q.1.thisOrPrevious p 25 = .ok (some 3)) = true := by cases p <;> decide

/-- 0 10 20 | 100 110 at 15, 20, 50 and 100: samples 1, 2, 2 and 3. -/
example : okAnd (Vsri.run .debug .new [0, 10, 20, 100, 110]) (fun q => q.1.allTimestamps .debug = .ok [0, 10, 20, 100, 110] ∧
    q.1.thisOrPrevious .debug 15 = .ok (some 1) ∧ q.1.thisOrPrevious .debug 20 = .ok (some 2) ∧ q.1.thisOrPrevious .debug 50 = .ok (some 2) ∧
    q.1.thisOrPrevious .debug 100 = .ok (some 3) ∧ q.1.thisOrNext .debug 20 = .ok (some 2) ∧ q.1.thisOrNext .debug 15 = .ok (some 1)) = true := by decide
example : DayHistory [0, 10, 20, 100, 110] := ⟨by decide, by decide⟩

end Atsc
