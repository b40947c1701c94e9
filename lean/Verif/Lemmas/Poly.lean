import Verif.Lemmas.Stream
import Verif.Props.Rounding
import Verif.Model.Poly
/- Lemmas about the Polynomial/IDW compressor. -/
namespace Atsc
open FP

/-! ### Positions -/

theorem positions_spec {n step : Nat} (hn : 1 ≤ n) (hs : 1 ≤ step) :
    (positions n step).Pairwise (· < ·) ∧ ∀ i, i ∈ positions n step ↔ i < n ∧ (step ∣ i ∨ i = n - 1) := by
  set k := (n + step - 1) / step with hk
  have hmul : ∀ i, i < k ↔ i * step < n := by
    intro i
    rw [hk, Nat.lt_div_iff_mul_lt (by omega)]
    have : step * i = i * step := Nat.mul_comm _ _
    omega
  have hmem : ∀ i, i ∈ (List.range k).map (· * step) ↔ i < n ∧ step ∣ i := by
    intro i
    simp only [List.mem_map, List.mem_range]
    constructor
    · rintro ⟨a, ha, rfl⟩; exact ⟨(hmul a).1 ha, Dvd.intro_left _ rfl⟩
    · rintro ⟨h1, a, rfl⟩
      exact ⟨a, (hmul a).2 (by rw [Nat.mul_comm]; exact h1), Nat.mul_comm _ _⟩
  have hsort : ((List.range k).map (· * step)).Pairwise (· < ·) := by
    rw [List.pairwise_map]
    exact List.pairwise_lt_range.imp fun h => Nat.mul_lt_mul_of_pos_right h hs
  unfold positions
  simp only [← hk]
  split_ifs with hc
  · have hnot : n - 1 ∉ (List.range k).map (· * step) := by
      intro hm
      apply hc
      generalize (List.range k).map (· * step) = L at *
      rcases List.eq_nil_or_concat L with rfl | ⟨l, x, rfl⟩
      · simp at hm
      · rw [List.concat_eq_append] at *
        rw [List.getLast?_concat, Option.some_inj]
        have h1 := (hmem x).1 (by simp)
        rw [List.pairwise_append] at hsort
        rcases List.mem_append.1 hm with hm | hm
        · have := hsort.2.2 _ hm x (by simp)
          omega
        · simp only [List.mem_singleton] at hm; exact hm.symm
    constructor
    · rw [List.pairwise_append]
      refine ⟨hsort, by simp, fun a ha b hb => ?_⟩
      simp only [List.mem_singleton] at hb
      have h1 := (hmem a).1 ha
      have : a ≠ n - 1 := fun h => hnot (h ▸ ha)
      omega
    · intro i
      rw [List.mem_append, hmem, List.mem_singleton]
      constructor
      · rintro (h | h)
        · exact ⟨h.1, Or.inl h.2⟩
        · exact ⟨by omega, Or.inr h⟩
      · rintro ⟨h1, h | h⟩
        · exact Or.inl ⟨h1, h⟩
        · exact Or.inr h
  · refine ⟨hsort, fun i => ?_⟩
    rw [hmem]
    constructor
    · exact fun h => ⟨h.1, Or.inl h.2⟩
    · rintro ⟨h1, h | h⟩
      · exact ⟨h1, h⟩
      · subst h
        rw [not_not] at hc
        exact (hmem _).1 (List.mem_of_getLast? hc)

theorem positions_one {n : Nat} (hn : 1 ≤ n) : positions n 1 = List.range n := by
  unfold positions
  have : ((List.range ((n + 1 - 1) / 1)).map (· * 1)) = List.range n := by simp
  simp only [this]
  rw [if_neg]
  rw [not_not, List.getLast?_range]; simp; omega

/-- If as many positions are stored as there are samples, they are all the positions. -/
theorem positions_all {n step : Nat} (hn : 1 ≤ n) (hs : 1 ≤ step) (hl : (positions n step).length = n) :
    positions n step = List.range n := by
  obtain ⟨h1, h2⟩ := positions_spec hn hs
  have hsub : (positions n step) ⊆ List.range n := fun i hi => List.mem_range.2 ((h2 i).1 hi).1
  have hp : (positions n step).Perm (List.range n) :=
    (List.Nodup.subperm (h1.imp fun h => Nat.ne_of_lt h) hsub).perm_of_length_le (by simp [hl])
  exact hp.eq_of_pairwise (fun a b _ _ hab hba => absurd hab (by omega)) h1 List.pairwise_lt_range

theorem gather_ok (data : List F64) : ∀ ps : List Nat, (∀ i ∈ ps, i < data.length) →
    gather data ps = .ok (ps.map fun i => data.getD i FP.zero) := by
  intro ps
  induction ps with
  | nil => intro _; rfl
  | cons i is ih =>
    intro h
    have hi := h i (by simp)
    simp only [gather]
    rw [List.getElem?_eq_getElem hi]
    simp only
    rw [ih fun j hj => h j (by simp [hj])]
    simp only [List.map_cons]
    rw [List.getD_eq_getElem _ _ hi]
    rfl

/-- The compressor after storing every `step`-th sample and the last one. -/
def Poly.stored (c : Poly) (data : List F64) (step : Nat) : Poly :=
  { c with dataPoints := (positions data.length step).map fun i => data.getD i FP.zero, pointStep := step % 256 }

def hintStep (n points : Nat) : Nat := Nat.max (n / points) 1

theorem hinted_ok (c : Poly) (data : List F64) (points : Nat) (hc : c.max.feq c.min = false) (hp : 1 ≤ points)
    (hn : 1 ≤ data.length) : c.compressHinted data points = .ok (c.stored data (hintStep data.length points)) := by
  have h1 : 1 ≤ hintStep data.length points := Nat.le_max_right _ _
  unfold Poly.compressHinted
  rw [if_neg (by simp [hc]), if_neg (by omega), if_neg (by omega)]
  show (gather data (positions data.length (hintStep data.length points)) >>= fun v => _) = _
  rw [gather_ok _ _ fun i hi => (((positions_spec hn h1).2 i).1 hi).1]
  rfl

theorem hintStep_le {n points : Nat} (h : baselinePoints n ≤ points) : 1 ≤ hintStep n points ∧ hintStep n points ≤ 133 := by
  have h1 : 1 ≤ hintStep n points := Nat.le_max_right _ _
  refine ⟨h1, ?_⟩
  unfold hintStep
  apply Nat.max_le.2
  refine ⟨?_, by omega⟩
  unfold baselinePoints at h
  split_ifs at h with hc
  · have : n / points ≤ n / 3 := Nat.div_le_div_left h (by omega)
    omega
  · have h2 : n / points ≤ n / (n / 100) := Nat.div_le_div_left h (by omega)
    have h3 : n / (n / 100) ≤ 124 := by
      rw [← Nat.lt_succ_iff, Nat.div_lt_iff_lt_mul (by omega)]
      omega
    omega

theorem hintStep_self {n : Nat} (hn : 1 ≤ n) : hintStep n n = 1 := by
  unfold hintStep; rw [Nat.div_self hn]; rfl

/-! ### Codec -/

theorem rt_polyType : RT (fun _ => True) encPolyType decPolyType := by
  intro t rest _; cases t <;> rfl

theorem poly_dec_enc (c : Poly) (rest : Bytes) (hl : c.dataPoints.length < 2 ^ 64) :
    Poly.dec (c.enc ++ rest) =
      some ({ c with dataPoints := c.dataPoints.map (castBD c.bitdepth), error := none, pointStep := c.pointStep % 256 }, rest) := by
  have hv : RTM (fun _ => True) (encValue c.bitdepth) (decValue c.bitdepth) (castBD c.bitdepth) :=
    fun v r _ => encValue_dec c.bitdepth v r
  unfold Poly.dec Poly.enc
  simp only [List.append_assoc]
  rw [Dec.bind_eq (rt_polyType _ _ trivial), Dec.bind_eq (rt_bitdepth _ _ trivial),
    Dec.bind_eq (rtm_vec hv _ _ ⟨hl, fun _ _ => trivial⟩), Dec.bind_eq (rt_f64 _ _ trivial),
    Dec.bind_eq (rt_f64 _ _ trivial), Dec.bind_eq (rt_u8 _ _ trivial)]
  simp [Dec.pure]

/-- What the decoder sees of an encoded compressor. -/
def Poly.seen (c : Poly) : Poly :=
  { c with dataPoints := c.dataPoints.map (castBD c.bitdepth), error := none, pointStep := c.pointStep % 256 }

theorem poly_unwrap (c : Poly) (hl : c.dataPoints.length < 2 ^ 64) : unwrapDec Poly.dec c.enc = .ok c.seen := by
  have := poly_dec_enc c [] hl
  rw [List.append_nil] at this
  unfold unwrapDec; rw [this]; rfl

theorem polyToData_enc (E : Ext) (n : Nat) (c : Poly) (hl : c.dataPoints.length < 2 ^ 64) :
    polyToData E n c.enc = c.seen.toData E n := by
  unfold polyToData; rw [poly_unwrap c hl]; rfl

/-! ### Interpolation -/

theorem splineSamples_spec (f : F64 → Option F64) (mn mx : F64) (d : Nat) : ∀ (is : List Nat) (prev : F64),
    (splineSamples f mn mx d is prev).length = is.length ∧
      ∀ y ∈ splineSamples f mn mx d is prev, ∃ v, y = roundAndLimit v mn mx d := by
  intro is
  induction is with
  | nil => intro _; simp [splineSamples]
  | cons i is ih =>
    intro prev
    simp only [splineSamples]
    refine ⟨by simp [(ih _).1], ?_⟩
    intro y hy
    rcases List.mem_cons.1 hy with rfl | hy
    · exact ⟨_, rfl⟩
    · exact (ih _).2 y hy

theorem interpolate_ok (E : Ext) (c : Poly) (n : Nat) (hn : 1 ≤ n) (hs : c.pointStep ≠ 0) :
    ∃ out, c.interpolate E n = .ok out ∧ out.length = n ∧ ∀ y ∈ out, ∃ v, y = roundAndLimit v c.min c.max 5 := by
  have hg : c.getPositions n = .ok (positions n c.pointStep) := by
    unfold Poly.getPositions; rw [if_neg hs, if_neg (by omega)]
  unfold Poly.interpolate
  cases c.id with
  | polynomial =>
    simp only [Poly.polynomialToData, hg]
    refine ⟨_, rfl, ?_, ?_⟩
    · rw [(splineSamples_spec _ _ _ _ _ _).1, List.length_range]
    · exact (splineSamples_spec _ _ _ _ _ _).2
  | idw =>
    simp only [Poly.idwToData, hg]
    refine ⟨_, rfl, by simp, ?_⟩
    intro y hy
    obtain ⟨i, _, rfl⟩ := List.mem_map.1 hy
    exact ⟨_, rfl⟩

theorem calculateError_ok {a b : List F64} (h : a.length = b.length) : ∃ e, calculateError a b = .ok e := by
  unfold calculateError ErrorMethod.error errorMape
  rw [if_neg (by simpa using h)]; exact ⟨_, rfl⟩

/-! ### The bounded search -/

/-- What is known after at least one round. -/
def PolyRound (E : Ext) (c0 : Poly) (data : List F64) (s : PolyLoop) : Prop :=
  ∃ step, 1 ≤ step ∧ step ≤ 133 ∧ s.c = c0.stored data step ∧
    ∃ out, s.c.interpolate E data.length = .ok out ∧ calculateError data out = .ok s.err

/-- What is known when the search stored everything. -/
def PolyAll (c0 : Poly) (data : List F64) (s : PolyLoop) : Prop :=
  ∃ step, 1 ≤ step ∧ step ≤ 133 ∧ s.c = c0.stored data step ∧ s.c.dataPoints.length = data.length ∧ s.err = FP.zero

theorem stored_max (c : Poly) (d : List F64) (k : Nat) : (c.stored d k).max = c.max := rfl
theorem stored_min (c : Poly) (d : List F64) (k : Nat) : (c.stored d k).min = c.min := rfl
theorem stored_stored (c : Poly) (d : List F64) (k k' : Nat) : (c.stored d k).stored d k' = c.stored d k' := rfl
theorem stored_len (c : Poly) (d : List F64) (k : Nat) : (c.stored d k).dataPoints.length = (positions d.length k).length := by
  simp [Poly.stored]

theorem poly_step (E : Ext) (c0 : Poly) (data : List F64) (target : F64) (hc : c0.max.feq c0.min = false)
    (hn : 1 ≤ data.length) (s : PolyLoop) (hs : s.c = c0 ∨ ∃ k, s.c = c0.stored data k) :
    (∃ s', s.iterations ≤ 21 ∧ Poly.step E data target s = .ok (.cont s') ∧ s'.iterations = s.iterations + 1 ∧ PolyRound E c0 data s') ∨
    (∃ s', Poly.step E data target s = .ok (.brk s') ∧ s'.iterations = s.iterations + 1 ∧
      ((PolyRound E c0 data s' ∧ (roundF64 s'.err 4).lt target = true) ∨ PolyAll c0 data s')) := by
  have hb : 1 ≤ baselinePoints data.length := by unfold baselinePoints; split_ifs <;> omega
  have hcomp : s.c.compressHinted data (baselinePoints data.length + s.jump) =
      .ok (c0.stored data (hintStep data.length (baselinePoints data.length + s.jump))) := by
    rcases hs with h | ⟨k, h⟩
    · rw [h]; exact hinted_ok c0 data _ hc (by omega) hn
    · rw [h, hinted_ok _ data _ (by exact hc) (by omega) hn]; rfl
  obtain ⟨hk1, hk2⟩ := hintStep_le (n := data.length) (points := baselinePoints data.length + s.jump) (by omega)
  set k := hintStep data.length (baselinePoints data.length + s.jump)
  have hstep0 : (c0.stored data k).pointStep ≠ 0 := by
    show k % 256 ≠ 0
    rw [Nat.mod_eq_of_lt (by omega)]; omega
  obtain ⟨out, ho, hol, _⟩ := interpolate_ok E (c0.stored data k) data.length hn hstep0
  obtain ⟨e, he⟩ := calculateError_ok (a := data) (b := out) hol.symm
  unfold Poly.step
  simp only [hcomp, ok_bind, ho, he]
  by_cases h22 : s.iterations + 1 ≤ 22
  · rw [if_pos h22]
    by_cases hall : (c0.stored data k).dataPoints.length = data.length
    · rw [if_pos hall]
      right
      refine ⟨_, rfl, rfl, Or.inr ⟨k, hk1, hk2, rfl, hall, rfl⟩⟩
    · rw [if_neg hall]
      left
      exact ⟨_, by omega, rfl, rfl, k, hk1, hk2, rfl, out, ho, he⟩
  · rw [if_neg h22]
    right
    by_cases hlt : (roundF64 e 4).lt target = true
    · rw [if_pos hlt]
      exact ⟨_, rfl, rfl, Or.inl ⟨⟨k, hk1, hk2, rfl, out, ho, he⟩, hlt⟩⟩
    · rw [if_neg hlt, hinted_ok _ data _ (by exact hc) hn hn, ok_bind, stored_stored, hintStep_self hn]
      refine ⟨_, rfl, rfl, Or.inr ⟨1, by omega, by omega, rfl, ?_, rfl⟩⟩
      rw [stored_len, positions_one hn, List.length_range]

/-- The outcome of the search once it has been entered. -/
def PolyDone (E : Ext) (c0 : Poly) (data : List F64) (target : F64) (s : PolyLoop) : Prop :=
  (PolyRound E c0 data s ∧ target.lt (roundF64 s.err 4) = false) ∨ PolyAll c0 data s

theorem lt_asymm' {a b : F64} (h : a.lt b = true) : b.lt a = false := by
  rw [Bool.eq_false_iff]; intro h'
  have := (lt_iff.1 h).2.2; have := (lt_iff.1 h').2.2; omega

theorem poly_loop (E : Ext) (c0 : Poly) (data : List F64) (target : F64) (hc : c0.max.feq c0.min = false)
    (hn : 1 ≤ data.length) : ∀ (fuel : Nat) (s : PolyLoop), s.iterations ≤ 22 → 23 ≤ fuel + s.iterations →
      (PolyRound E c0 data s ∨ (s.c = c0 ∧ target.lt (roundF64 s.err 4) = true)) →
      ∃ s', Poly.loop E data target fuel s = .ok s' ∧ s'.iterations ≤ 23 ∧ PolyDone E c0 data target s' := by
  intro fuel
  induction fuel with
  | zero => intro s h1 h2; omega
  | succ f ih =>
    intro s h1 h2 h3
    have hs : s.c = c0 ∨ ∃ k, s.c = c0.stored data k := by
      rcases h3 with ⟨k, _, _, h, _⟩ | ⟨h, _⟩
      · exact Or.inr ⟨k, h⟩
      · exact Or.inl h
    unfold Poly.loop
    by_cases hcond : target.lt (roundF64 s.err 4) = true
    · rw [if_pos hcond]
      simp only
      rcases poly_step E c0 data target hc hn s hs with ⟨s', hi, e1, e2, e3⟩ | ⟨s', e1, e2, e3⟩
      · rw [e1, ok_bind]
        exact ih s' (by omega) (by omega) (Or.inl e3)
      · rw [e1, ok_bind]
        refine ⟨s', rfl, by omega, ?_⟩
        rcases e3 with ⟨e3, e4⟩ | e3
        · exact Or.inl ⟨e3, lt_asymm' e4⟩
        · exact Or.inr e3
    · rw [if_neg hcond]
      refine ⟨s, rfl, by omega, ?_⟩
      rcases h3 with h3 | ⟨_, h3⟩
      · exact Or.inl ⟨h3, by simpa using hcond⟩
      · exact absurd h3 hcond

end Atsc
