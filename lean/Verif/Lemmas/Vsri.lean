import Verif.Model.Vsri
import Verif.Spec.Index
import Mathlib.Tactic.Linarith
import Mathlib.Tactic.Ring
/- Invariant of the time index over strictly increasing histories. -/
namespace Atsc

theorem i32op_in {p : Profile} {a : Int} (h : InI32 a) : i32op p a = .ok a := if_pos h

theorem i32op_ok {p : Profile} {a b : Int} (h : i32op p a = .ok b) : InI32 b ∧ (InI32 a → b = a) := by
  unfold i32op at h
  split at h
  · rename_i ha; obtain rfl := Except.ok.inj h; exact ⟨ha, fun _ => rfl⟩
  · rename_i ha
    cases p
    · cases h
    · obtain rfl := Except.ok.inj h
      refine ⟨?_, fun h' => absurd h' ha⟩
      unfold InI32 wrap32; omega

theorem i32op_debug {a b : Int} (h : i32op .debug a = .ok b) : InI32 a ∧ b = a := by
  unfold i32op at h
  split at h
  · rename_i ha; obtain rfl := Except.ok.inj h; exact ⟨ha, rfl⟩
  · cases h

theorem i32op_release (a : Int) : ∃ b, i32op .release a = .ok b := by
  unfold i32op; split
  · exact ⟨_, rfl⟩
  · exact ⟨_, rfl⟩

/-- In every build: the wrapped value differs from the exact one by a multiple of 2^32. -/
theorem i32op_mod {p : Profile} {a b : Int} (h : i32op p a = .ok b) : ∃ k : Int, b = a + 4294967296 * k := by
  unfold i32op at h
  split at h
  · obtain rfl := Except.ok.inj h; exact ⟨0, by ring⟩
  · cases p
    · cases h
    · obtain rfl := Except.ok.inj h
      refine ⟨-((a + 2147483648) / 4294967296), ?_⟩
      unfold wrap32; omega

theorem i32div_pos {a b : Int} (h : 0 < b) : i32div a b = .ok (a.tdiv b) := by
  unfold i32div
  rw [if_neg (by omega), if_neg (by omega)]

/-- What one segment says about the block `blk` of points it stands for, `x` being the number of its first sample. -/
structure SegOK (s : Seg) (x : Int) (blk : List Int) : Prop where
  x0 : s.x0 = x
  n : s.n = blk.length
  head : blk.head? = some s.y0
  kind : (blk.length = 1 ∧ s.m = 0) ∨ (2 ≤ blk.length ∧ 0 < s.m)
  near : ∀ (j : Nat) (hj : j < blk.length), s.y0 + s.m * j ≤ blk[j] ∧ (0 < s.m → blk[j] < s.y0 + s.m * (j + 1))
  second : ∀ h : 1 < blk.length, blk[1] = s.y0 + s.m

/-- The segments, in order, stand for consecutive blocks of the history. -/
def Desc : Int → List Seg → List Int → Prop
  | _, [], h => h = []
  | x, s :: ss, h => ∃ blk rest, h = blk ++ rest ∧ SegOK s x blk ∧ Desc (x + blk.length) ss rest

theorem Desc_append {ss tt : List Seg} : ∀ {x : Int} {h : List Int},
    Desc x (ss ++ tt) h ↔ ∃ h1 h2, h = h1 ++ h2 ∧ Desc x ss h1 ∧ Desc (x + h1.length) tt h2 := by
  induction ss with
  | nil =>
    intro x h
    constructor
    · intro d; exact ⟨[], h, rfl, rfl, by simpa using d⟩
    · rintro ⟨h1, h2, rfl, d1, d2⟩
      obtain rfl : h1 = [] := d1
      simpa using d2
  | cons s ss ih =>
    intro x h
    constructor
    · rintro ⟨blk, rest, rfl, ok, d⟩
      obtain ⟨h1, h2, rfl, d1, d2⟩ := ih.1 d
      exact ⟨blk ++ h1, h2, by simp, ⟨blk, h1, rfl, ok, d1⟩, by
        have e : x + ((blk ++ h1).length : Int) = x + blk.length + h1.length := by simp; ring
        rw [e]; exact d2⟩
    · rintro ⟨h1, h2, rfl, ⟨blk, rest, rfl, ok, d1⟩, d2⟩
      refine ⟨blk, rest ++ h2, by simp, ok, ih.2 ⟨rest, h2, rfl, d1, ?_⟩⟩
      have e : x + ((blk ++ rest).length : Int) = x + blk.length + rest.length := by simp; ring
      rw [← e]; exact d2

theorem Desc_single {x : Int} {s : Seg} {h : List Int} : Desc x [s] h ↔ SegOK s x h := by
  constructor
  · rintro ⟨blk, rest, rfl, ok, d⟩
    obtain rfl : rest = [] := d
    simpa using ok
  · intro ok; exact ⟨h, [], by simp, ok, rfl⟩

/-- The invariant of an index fed with the strictly increasing history `h`. -/
structure Inv (v : Vsri) (h : List Int) : Prop where
  hist : StrictHistory h
  desc : Desc 0 v.segs h
  full : ∀ s ∈ v.segs.dropLast, 0 < s.m
  minTs : v.minTs = h.headD 0
  maxTs : v.maxTs = h.getLastD 0

theorem Inv_new : Inv Vsri.new [] :=
  ⟨⟨List.Pairwise.nil, by simp, by simp⟩, rfl, by simp [Vsri.new], rfl, rfl⟩

theorem current_snoc (ss : List Seg) (s : Seg) (a b : Int) : ({ minTs := a, maxTs := b, segs := ss ++ [s] } : Vsri).current = s := by
  unfold Vsri.current; simp

/-- Entries of a strictly increasing history of naturals grow at least as fast as their number. -/
theorem idx_le {h : List Int} (H : h.Pairwise (· < ·)) (H0 : ∀ y ∈ h, 0 ≤ y) : ∀ (i : Nat) (hi : i < h.length), (i : Int) ≤ h[i] := by
  intro i
  induction i with
  | zero => intro hi; exact H0 _ (List.getElem_mem hi)
  | succ i ih =>
    intro hi
    have := List.pairwise_iff_getElem.1 H i (i + 1) (by omega) hi (by omega)
    have := ih (by omega)
    push_cast; omega

/-- If a segment's fit test says yes, the point is in the slot after the last one — in debug and in release builds, although the
intermediate products may wrap in the latter. -/
theorem fits_true {p : Profile} {v : Vsri} {y : Int} (hm : 0 < v.current.m) (hx : 0 ≤ v.current.x0) (hn : 0 ≤ v.current.n)
    (hc : v.current.n + v.current.x0 < 2147483648) (hy0 : 0 ≤ v.current.y0) (hy : v.current.y0 ≤ y) (hy1 : y < 2147483648)
    (hpos : 0 < v.current.n)
    (h : v.fitsSegment p y = .ok true) :
    v.current.y0 + v.current.m * v.current.n ≤ y ∧ y < v.current.y0 + v.current.m * (v.current.n + 1) := by
  generalize hs : v.current = s at *
  unfold Vsri.fitsSegment Vsri.calculateB at h
  rw [hs] at h
  cases h1 : i32op p (s.m * s.x0) with
  | error e => rw [h1] at h; cases h
  | ok t =>
    cases h2 : i32op p (s.y0 - t) with
    | error e => rw [h1] at h; simp only [bind, Except.bind] at h; rw [h2] at h; cases h
    | ok b =>
      cases h3 : i32op p (y - b) with
      | error e => rw [h1] at h; simp only [bind, Except.bind] at h; rw [h2] at h; simp only at h; rw [h3] at h; cases h
      | ok d =>
        rw [h1] at h; simp only [bind, Except.bind] at h; rw [h2] at h; simp only at h; rw [h3] at h; simp only at h
        rw [i32div_pos hm, i32op_in (p := p) (a := s.n + s.x0) (by unfold InI32; omega)] at h
        have hq : d.tdiv s.m = s.n + s.x0 := by simpa using Except.ok.inj h
        have hd0 : 0 ≤ d := by
          by_contra hneg
          have h5 : 0 ≤ (-d).tdiv s.m := Int.tdiv_nonneg (by omega) hm.le
          rw [Int.neg_tdiv] at h5
          omega
        rw [Int.tdiv_eq_ediv_of_nonneg hd0] at hq
        have e1 : s.m * (s.n + s.x0) ≤ d := by rw [← hq]; exact Int.mul_ediv_self_le (by omega)
        have e2 : d < s.m * (s.n + s.x0) + s.m := by
          rw [← hq]; exact Int.lt_mul_ediv_self_add hm
        have hdr := (i32op_ok h3).1
        have hmn : 0 < s.m * s.n := Int.mul_pos hm hpos
        have hmx0 : 0 ≤ s.m * s.x0 := Int.mul_nonneg hm.le hx
        have e1' : s.m * s.n + s.m * s.x0 ≤ d := by rw [← Int.mul_add]; exact e1
        have e2' : d < s.m * s.n + s.m * s.x0 + s.m := by rw [← Int.mul_add]; exact e2
        have e3 : s.m * (s.n + 1) = s.m * s.n + s.m := by ring
        unfold InI32 at hdr
        have ht := (i32op_ok h1).2 (by unfold InI32; omega)
        have hb := (i32op_ok h2).2 (by unfold InI32; omega)
        have hd : d = y - b := by
          obtain ⟨k, hk⟩ := i32op_mod h3
          omega
        rw [e3]; omega

/-- Without overflow the fit test is exact. -/
theorem fits_exact {p : Profile} {v : Vsri} {y : Int} (hm : 0 < v.current.m) (hx : 0 ≤ v.current.x0) (hn : 0 ≤ v.current.n)
    (hc : v.current.n + v.current.x0 < 2147483648) (hy0 : 0 ≤ v.current.y0) (hy : v.current.y0 ≤ y) (hy1 : y < 2147483648)
    (hr : y - v.current.y0 + v.current.m * v.current.x0 < 2147483648) :
    v.fitsSegment p y = .ok (decide (v.current.y0 + v.current.m * v.current.n ≤ y ∧ y < v.current.y0 + v.current.m * (v.current.n + 1))) := by
  generalize hs : v.current = s at *
  have hmx0 : 0 ≤ s.m * s.x0 := Int.mul_nonneg hm.le hx
  unfold Vsri.fitsSegment Vsri.calculateB
  rw [hs, i32op_in (a := s.m * s.x0) (by unfold InI32; omega)]
  simp only [bind, Except.bind]
  rw [i32op_in (a := s.y0 - s.m * s.x0) (by unfold InI32; omega)]
  simp only
  rw [i32op_in (a := y - (s.y0 - s.m * s.x0)) (by unfold InI32; omega)]
  simp only
  rw [i32div_pos hm, i32op_in (a := s.n + s.x0) (by unfold InI32; omega)]
  simp only
  congr 1
  rw [Int.tdiv_eq_ediv_of_nonneg (by omega)]
  have e : y - (s.y0 - s.m * s.x0) = (y - s.y0) + s.x0 * s.m := by ring
  rw [e, Int.add_mul_ediv_right _ _ (by omega)]
  rw [Bool.eq_iff_iff]
  simp only [beq_iff_eq, decide_eq_true_iff]
  have e3 : s.m * (s.n + 1) = s.m * s.n + s.m := by ring
  constructor
  · intro h
    have hq : (y - s.y0) / s.m = s.n := by omega
    have e1 : s.m * ((y - s.y0) / s.m) ≤ y - s.y0 := Int.mul_ediv_self_le (by omega)
    have e2 : y - s.y0 < s.m * ((y - s.y0) / s.m) + s.m := Int.lt_mul_ediv_self_add hm
    rw [hq] at e1 e2
    rw [e3]; omega
  · rintro ⟨a, b⟩
    have hq : (y - s.y0) / s.m = s.n := by
      rw [Int.ediv_eq_iff_of_pos hm]
      rw [e3] at b
      constructor
      · rw [Int.mul_comm]; omega
      · rw [Int.mul_comm]; omega
    omega

/-- In a release build the fit test of a real segment never panics. -/
theorem fits_release {v : Vsri} {y : Int} (hm : 0 < v.current.m) : ∃ r, v.fitsSegment .release y = .ok r := by
  unfold Vsri.fitsSegment Vsri.calculateB
  obtain ⟨t, ht⟩ := i32op_release (v.current.m * v.current.x0)
  obtain ⟨b, hb⟩ := i32op_release (v.current.y0 - t)
  obtain ⟨d, hd⟩ := i32op_release (y - b)
  obtain ⟨n, hn⟩ := i32op_release (v.current.n + v.current.x0)
  rw [ht]; simp only [bind, Except.bind]
  rw [hb]; simp only
  rw [hd]; simp only
  rw [i32div_pos hm]; simp only
  rw [hn]
  exact ⟨_, rfl⟩

/-- The last segment of a described history. -/
theorem Inv.last {v : Vsri} {h : List Int} (I : Inv v h) (hne : v.segs ≠ []) :
    ∃ ss s h1 blk, v.segs = ss ++ [s] ∧ h = h1 ++ blk ∧ Desc 0 ss h1 ∧ SegOK s h1.length blk ∧ (∀ t ∈ ss, 0 < t.m) := by
  obtain ⟨ss, s, hs⟩ : ∃ ss s, v.segs = ss ++ [s] := ⟨_, _, (List.dropLast_concat_getLast hne).symm⟩
  have d := I.desc
  rw [hs] at d
  obtain ⟨h1, blk, rfl, d1, d2⟩ := Desc_append.1 d
  refine ⟨ss, s, h1, blk, hs, rfl, d1, ?_, ?_⟩
  · rw [Int.zero_add] at d2; exact Desc_single.1 d2
  · have := I.full; rw [hs] at this; simpa using this

theorem StrictHistory.snoc {h : List Int} {y : Int} (H : StrictHistory h) (h1 : ∀ z ∈ h, z < y) (h0 : 0 ≤ y) (h2 : y < 2147483648)
    (h3 : h.length + 1 < 2147483648) : StrictHistory (h ++ [y]) where
  increasing := by
    rw [List.pairwise_append]
    exact ⟨H.increasing, by simp, by simpa using h1⟩
  range := by
    intro z hz
    rcases List.mem_append.1 hz with hz | hz
    · exact H.range z hz
    · obtain rfl := List.mem_singleton.1 hz; exact ⟨h0, h2⟩
  few := by simpa using h3

theorem lt_of_getLastD {h : List Int} {y : Int} (H : h.Pairwise (· < ·)) (hy : h ≠ [] → h.getLastD 0 < y) : ∀ z ∈ h, z < y := by
  intro z hz
  have hne : h ≠ [] := List.ne_nil_of_mem hz
  have h1 := hy hne
  rw [← List.dropLast_concat_getLast hne] at hz H
  have e : h.getLastD 0 = h.getLast hne := by rw [List.getLastD_eq_getLast?, List.getLast?_eq_some_getLast hne]; rfl
  rw [e] at h1
  rcases List.mem_append.1 hz with hz | hz
  · exact lt_trans ((List.pairwise_append.1 H).2.2 z hz _ (List.mem_singleton_self _)) h1
  · rw [List.mem_singleton.1 hz]; exact h1

/-- One accepted point.  In release builds, and in debug builds whenever the call does not overflow, the invariant is kept.  Overflow is
impossible while the timestamps do not exceed 92680. -/
theorem update_step {p : Profile} {v : Vsri} {h : List Int} {y : Int} (I : Inv v h) (hy : h ≠ [] → h.getLastD 0 < y) (h0 : 0 ≤ y)
    (h2 : y < 2147483648) (h3 : h.length + 1 < 2147483648) :
    (∃ v', v.update p y = .ok (v', true) ∧ Inv v' (h ++ [y])) ∨
      (p = .debug ∧ 92680 < y ∧ v.update p y = .error .overflow) := by
  have hlt := lt_of_getLastD I.hist.increasing hy
  have H := I.hist.snoc hlt h0 h2 h3
  have hnot : ¬ y < v.maxTs := by
    rw [I.maxTs]
    by_cases hne : h = []
    · subst hne; simpa using h0
    · have := hy hne; omega
  unfold Vsri.update
  rw [if_neg hnot]
  by_cases hseg : v.segs = []
  · have hh : h = [] := by have := I.desc; rw [hseg] at this; exact this
    subst hh
    left
    refine ⟨{ minTs := y, maxTs := y, segs := [⟨0, 0, y, 1⟩] }, ?_, ⟨H, ?_, by simp, by simp, by simp⟩⟩
    · dsimp only
      rw [hseg]
      rfl
    · exact Desc_single.2 ⟨rfl, rfl, rfl, Or.inl ⟨rfl, rfl⟩, by simp, by simp⟩
  · obtain ⟨ss, s, g, blk, hs, rfl, d1, ok, hfull⟩ := I.last hseg
    have hlen : v.segs.length ≠ 0 := by simpa using hseg
    dsimp only
    rw [if_neg hlen]
    have hcur : ({ v with maxTs := y } : Vsri).current = s := by unfold Vsri.current; simp [hs]
    have hblk : blk ≠ [] := by
      rintro rfl
      have := ok.head; simp at this
    have hpos : 0 < blk.length := List.length_pos_iff.2 hblk
    have hy0mem : s.y0 ∈ g ++ blk := List.mem_append_right _ (List.mem_of_mem_head? (by rw [ok.head]; rfl))
    have hy0 := I.hist.range _ hy0mem
    have hy0y := hlt _ hy0mem
    have hcount : s.n + s.x0 = ((g ++ blk).length : Int) := by
      rw [ok.n, ok.x0]; simp; omega
    have hfew : ((g ++ blk).length : Int) + 1 < 2147483648 := by exact_mod_cast h3
    have hmin : v.minTs = ((g ++ blk) ++ [y]).headD 0 := by
      rw [I.minTs]
      cases hgb : g ++ blk with
      | nil => rw [hgb] at hy0mem; cases hy0mem
      | cons a l => rfl
    by_cases hfake : ({ v with maxTs := y } : Vsri).isFake = true
    · rw [if_pos hfake]
      have hm0 : s.m = 0 := by
        unfold Vsri.isFake at hfake; rw [hcur] at hfake; simpa using hfake
      left
      obtain ⟨b, rfl⟩ : ∃ b, blk = [b] := by
        rcases ok.kind with ⟨h1, _⟩ | ⟨_, h1⟩
        · exact List.length_eq_one_iff.1 h1
        · omega
      have hb : b = s.y0 := by simpa using ok.head
      subst hb
      refine ⟨{ minTs := v.minTs, maxTs := y, segs := ss ++ [⟨y - s.y0, s.x0, s.y0, 2⟩] }, ?_, ⟨H, ?_, ?_, hmin, by simp⟩⟩
      · unfold Vsri.generateSegment
        rw [hcur, if_neg (by omega), i32op_in (by unfold InI32; omega)]
        simp [bind, Except.bind, hs]
      · refine Desc_append.2 ⟨g, [s.y0, y], by simp, d1, Desc_single.2 ⟨?_, rfl, rfl, Or.inr ⟨by simp, by dsimp only; omega⟩, ?_, ?_⟩⟩
        · rw [Int.zero_add]; exact ok.x0
        · intro j hj
          match j, hj with
          | 0, _ => simp
          | 1, _ => constructor
                    · simp
                    · intro _; simp; omega
        · intro _; simp
      · simpa using hfull
    · rw [if_neg hfake]
      have hm : 0 < s.m := by
        rcases ok.kind with ⟨_, h1⟩ | ⟨_, h1⟩
        · exfalso; apply hfake; unfold Vsri.isFake; rw [hcur, h1]; rfl
        · exact h1
      have hlen2 : 2 ≤ blk.length := by
        rcases ok.kind with ⟨_, h1⟩ | ⟨h1, _⟩
        · omega
        · exact h1
      cases hf : ({ v with maxTs := y } : Vsri).fitsSegment p y with
      | error e =>
        right
        have hp : p = .debug := by
          cases p
          · rfl
          · obtain ⟨r, hr⟩ := fits_release (v := { v with maxTs := y }) (y := y) (by rw [hcur]; exact hm)
            rw [hr] at hf; cases hf
        have hbig : 92680 < y := by
          by_contra hsmall
          have hx0 : s.x0 ≤ s.y0 := by
            have := idx_le I.hist.increasing (fun z hz => (I.hist.range z hz).1) g.length (by simp; omega)
            rw [List.getElem_append_right (le_refl _)] at this
            have e : s.y0 = blk[0] := by
              have := ok.head
              rw [List.head?_eq_getElem?, List.getElem?_eq_getElem hpos] at this
              exact (Option.some.inj this).symm
            rw [ok.x0, e]; simpa using this
          have hsec : s.y0 + s.m < y := by
            rw [← ok.second (by omega)]
            exact hlt _ (List.mem_append_right _ (List.getElem_mem _))
          have hx00 : 0 ≤ s.x0 := by rw [ok.x0]; omega
          have hbound : y - s.y0 + s.m * s.x0 < 2147483648 := by
            have a1 : s.m * s.x0 ≤ s.m * s.y0 := Int.mul_le_mul_of_nonneg_left hx0 hm.le
            have a2 : s.m * s.y0 ≤ (92680 - s.y0) * s.y0 := Int.mul_le_mul_of_nonneg_right (by omega) hy0.1
            nlinarith [sq_nonneg (2 * s.y0 - 92679)]
          have := fits_exact (p := p) (v := { v with maxTs := y }) (y := y) (by rw [hcur]; exact hm) (by rw [hcur]; exact hx00)
            (by rw [hcur, ok.n]; omega) (by rw [hcur]; omega) (by rw [hcur]; exact hy0.1) (by rw [hcur]; omega) h2 (by rw [hcur]; exact hbound)
          rw [this] at hf; cases hf
        refine ⟨hp, hbig, ?_⟩
        have he : e = .overflow := by
          subst hp
          unfold Vsri.fitsSegment Vsri.calculateB at hf
          rw [hcur] at hf
          have key : ∀ {a : Int} {e' : Panic}, i32op .debug a = .error e' → e' = .overflow := by
            intro a e' h
            unfold i32op at h
            split at h
            · cases h
            · exact (Except.error.inj h).symm
          cases h1 : i32op .debug (s.m * s.x0) with
          | error e1 => rw [h1] at hf; cases hf; exact key h1
          | ok t =>
            rw [h1] at hf; simp only [bind, Except.bind] at hf
            cases h2 : i32op .debug (s.y0 - t) with
            | error e1 => rw [h2] at hf; cases hf; exact key h2
            | ok b =>
              rw [h2] at hf; simp only at hf
              cases h3 : i32op .debug (y - b) with
              | error e1 => rw [h3] at hf; cases hf; exact key h3
              | ok d =>
                rw [h3] at hf; simp only at hf
                rw [i32div_pos hm] at hf; simp only at hf
                cases h4 : i32op .debug (s.n + s.x0) with
                | error e1 => rw [h4] at hf; cases hf; exact key h4
                | ok d => rw [h4] at hf; cases hf
        rw [he]; rfl
      | ok r =>
        left
        cases r with
        | true =>
          have hx00 : 0 ≤ s.x0 := by rw [ok.x0]; omega
          have hfit := fits_true (p := p) (v := { v with maxTs := y }) (y := y) (by rw [hcur]; exact hm) (by rw [hcur]; exact hx00)
            (by rw [hcur, ok.n]; omega) (by rw [hcur]; omega) (by rw [hcur]; exact hy0.1) (by rw [hcur]; omega) h2
            (by rw [hcur, ok.n]; omega) hf
          rw [hcur] at hfit ⊢
          refine ⟨{ minTs := v.minTs, maxTs := y, segs := ss ++ [{ s with n := s.n + 1 }] }, ?_, ⟨H, ?_, ?_, hmin, by simp⟩⟩
          · simp only [bind, Except.bind, if_pos]
            rw [i32op_in (a := s.n + 1) (by unfold InI32; rw [ok.n]; have := hcount; rw [ok.n] at this; omega)]
            simp [hs]
          · refine Desc_append.2 ⟨g, blk ++ [y], by simp, d1, Desc_single.2 ⟨?_, ?_, ?_, Or.inr ⟨by simp; omega, hm⟩, ?_, ?_⟩⟩
            · rw [Int.zero_add]; exact ok.x0
            · dsimp only; rw [ok.n]; simp
            · dsimp only; rw [List.head?_append, ok.head]; rfl
            · intro j hj
              dsimp only
              by_cases hj2 : j < blk.length
              · rw [List.getElem_append_left hj2]; exact ok.near j hj2
              · have hj3 : j = blk.length := by simp at hj; omega
                subst hj3
                rw [List.getElem_append_right (le_refl _)]
                rw [ok.n] at hfit
                simp only [Nat.sub_self, List.getElem_cons_zero]
                exact ⟨hfit.1, fun _ => hfit.2⟩
            · intro h1
              rw [List.getElem_append_left (by omega)]
              exact ok.second (by omega)
          · simpa using hfull
        | false =>
          refine ⟨{ minTs := v.minTs, maxTs := y, segs := v.segs ++ [⟨0, s.n + s.x0, y, 1⟩] }, ?_, ⟨H, ?_, ?_, hmin, by simp⟩⟩
          · simp only [bind, Except.bind]
            unfold Vsri.fakeSegment
            rw [hcur, i32op_in (a := s.x0 + s.n) (by unfold InI32; rw [ok.n, ok.x0]; simp only [List.length_append] at hfew; push_cast at hfew; omega), Int.add_comm s.x0]
            rfl
          · refine Desc_append.2 ⟨g ++ blk, [y], rfl, I.desc, Desc_single.2 ⟨?_, rfl, rfl, Or.inl ⟨rfl, rfl⟩, by simp, by simp⟩⟩
            dsimp only; rw [hcount]; simp
          · dsimp only
            rw [List.dropLast_concat, hs]
            intro t ht
            rcases List.mem_append.1 ht with ht | ht
            · exact hfull t ht
            · rw [List.mem_singleton.1 ht]; exact hm

/-- A strictly increasing continuation of the history. -/
theorem run_step {p : Profile} : ∀ {ys : List Int} {v : Vsri} {h : List Int}, Inv v h → StrictHistory (h ++ ys) →
    (∃ v', Vsri.run p v ys = .ok (v', List.replicate ys.length true) ∧ Inv v' (h ++ ys)) ∨
      (p = .debug ∧ (∃ y ∈ ys, 92680 < y) ∧ Vsri.run p v ys = .error .overflow) := by
  intro ys
  induction ys with
  | nil => intro v h I H; left; exact ⟨v, rfl, by simpa using I⟩
  | cons y ys ih =>
    intro v h I H
    have hmem : y ∈ h ++ y :: ys := by simp
    have hr := H.range y hmem
    have hlast : h ≠ [] → h.getLastD 0 < y := by
      intro hne
      have e : h.getLastD 0 = h.getLast hne := by rw [List.getLastD_eq_getLast?, List.getLast?_eq_some_getLast hne]; rfl
      rw [e]
      exact (List.pairwise_append.1 H.increasing).2.2 _ (List.getLast_mem hne) y (by simp)
    have hfew : h.length + 1 < 2147483648 := by have := H.few; simp at this; omega
    rcases update_step (p := p) I hlast hr.1 hr.2 hfew with ⟨v', h1, I'⟩ | ⟨hp, hb, he⟩
    · have H' : StrictHistory ((h ++ [y]) ++ ys) := by simpa using H
      rcases ih I' H' with ⟨w, h2, I2⟩ | ⟨hp, ⟨z, hz, hb⟩, he⟩
      · left
        refine ⟨w, ?_, by simpa using I2⟩
        unfold Vsri.run
        rw [h1]; simp only [bind, Except.bind]
        rw [h2]; rfl
      · right
        refine ⟨hp, ⟨z, by simp [hz], hb⟩, ?_⟩
        unfold Vsri.run
        rw [h1]; simp only [bind, Except.bind]
        rw [he]
    · right
      refine ⟨hp, ⟨y, by simp, hb⟩, ?_⟩
      unfold Vsri.run
      rw [he]; rfl

theorem run_strict (p : Profile) {h : List Int} (H : StrictHistory h) :
    (∃ v, Vsri.run p .new h = .ok (v, List.replicate h.length true) ∧ Inv v h) ∨
      (p = .debug ∧ (∃ y ∈ h, 92680 < y) ∧ Vsri.run p .new h = .error .overflow) := by
  simpa using run_step (p := p) (ys := h) Inv_new (by simpa using H)

theorem run_inv {p : Profile} {h : List Int} (H : StrictHistory h) {v : Vsri} {rs : List Bool} (hr : Vsri.run p .new h = .ok (v, rs)) :
    Inv v h ∧ rs = List.replicate h.length true := by
  rcases run_strict p H with ⟨w, h1, I⟩ | ⟨_, _, he⟩
  · rw [h1] at hr
    have := Except.ok.inj hr
    obtain ⟨rfl, rfl⟩ := Prod.mk.inj this
    exact ⟨I, rfl⟩
  · rw [he] at hr; cases hr

theorem Desc_mem {s : Seg} : ∀ {segs : List Seg} {x : Int} {h : List Int}, Desc x segs h → s ∈ segs →
    ∃ g blk g', h = g ++ (blk ++ g') ∧ SegOK s (x + g.length) blk := by
  intro segs
  induction segs with
  | nil => intro x h _ hs; cases hs
  | cons a ss ih =>
    rintro x h ⟨blk, rest, rfl, ok, d⟩ hs
    rcases List.mem_cons.1 hs with rfl | hs
    · exact ⟨[], blk, rest, rfl, by simpa using ok⟩
    · obtain ⟨g, b, g', rfl, ok'⟩ := ih d hs
      refine ⟨blk ++ g, b, g', by simp, ?_⟩
      have e : x + ((blk ++ g).length : Int) = x + blk.length + g.length := by simp; ring
      rw [e]; exact ok'

theorem SegOK.pos {s : Seg} {x : Int} {blk : List Int} (ok : SegOK s x blk) : 0 < blk.length := by
  rcases ok.kind with h | h <;> omega

theorem SegOK.m_nonneg {s : Seg} {x : Int} {blk : List Int} (ok : SegOK s x blk) : 0 ≤ s.m := by
  rcases ok.kind with h | h <;> omega

theorem SegOK.first {s : Seg} {x : Int} {blk : List Int} (ok : SegOK s x blk) : blk[0]'ok.pos = s.y0 := by
  have := ok.head
  rw [List.head?_eq_getElem?, List.getElem?_eq_getElem ok.pos] at this
  exact Option.some.inj this

/-- The recorded end of a segment is not after its last point. -/
theorem SegOK.last_le {s : Seg} {x : Int} {blk : List Int} (ok : SegOK s x blk) :
    s.y0 ≤ s.last ∧ s.last ≤ blk[blk.length - 1]'(by have := ok.pos; omega) := by
  have h1 := ok.pos
  have h2 := (ok.near (blk.length - 1) (by omega)).1
  have e : s.n - 1 = ((blk.length - 1 : Nat) : Int) := by rw [ok.n]; omega
  unfold Seg.last
  rw [e]
  exact ⟨by have := Int.mul_nonneg ok.m_nonneg (Int.natCast_nonneg (blk.length - 1)); omega, h2⟩

/-- A segment ends before the following ones begin. -/
theorem Desc_sep {s : Seg} {ss : List Seg} {x : Int} {h : List Int} (d : Desc x (s :: ss) h) (H : h.Pairwise (· < ·)) :
    ∀ t ∈ ss, s.last < t.y0 := by
  obtain ⟨blk, rest, rfl, ok, d⟩ := d
  intro t ht
  obtain ⟨g, b, g', rfl, ok'⟩ := Desc_mem d ht
  have h1 := ok.last_le.2
  have h2 := ok'.first
  have := (List.pairwise_append.1 H).2.2 _ (List.getElem_mem (l := blk) (n := blk.length - 1) (by have := ok.pos; omega)) t.y0
    (by rw [← h2]; simp)
  omega

theorem segEnd_ok {p : Profile} {s : Seg} {x : Int} {blk : List Int} (ok : SegOK s x blk) (hr : ∀ y ∈ blk, 0 ≤ y ∧ y < 2147483648)
    (hl : blk.length < 2147483648) : Vsri.segEnd p s = .ok s.last := by
  have h1 := ok.last_le
  have h2 := hr _ (List.getElem_mem (l := blk) (n := blk.length - 1) (by have := ok.pos; omega))
  have h3 := hr _ (List.getElem_mem ok.pos)
  rw [ok.first] at h3
  have hp := ok.pos
  unfold Vsri.segEnd
  have hn : InI32 (s.n - 1) := by unfold InI32; rw [ok.n]; omega
  rw [i32op_in hn]
  simp only [bind, Except.bind]
  unfold Seg.last at h1
  rw [i32op_in (a := s.m * (s.n - 1)) (by unfold InI32; omega)]
  simp only
  rw [i32op_in (by unfold InI32; omega)]
  rfl

end Atsc
