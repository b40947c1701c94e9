import Verif.Lemmas.SumErr
/- Error of float means and ratios of sums, for terms known up to a relative and an absolute error. -/
namespace Atsc
open FP

/-- `s` computes `t` up to the relative error `δ` and the absolute error `η`, on every element of `l`. -/
structure TermErr {α : Type} (l : List α) (s : α → F64) (t : α → ℚ) (δ η : ℚ) : Prop where
  fin : ∀ x ∈ l, (s x).isFinite = true
  nonneg : ∀ x ∈ l, 0 ≤ (s x).val
  texact : ∀ x ∈ l, 0 ≤ t x
  err : ∀ x ∈ l, |(s x).val - t x| ≤ δ * t x + η

theorem TermErr.sum_nonneg {α : Type} {l : List α} {s : α → F64} {t : α → ℚ} {δ η : ℚ} (h : TermErr l s t δ η) : 0 ≤ (l.map t).sum := by
  apply List.sum_nonneg
  intro v hv
  obtain ⟨y, hy, rfl⟩ := List.mem_map.1 hv
  exact h.texact y hy

theorem terms_sum {α : Type} {l : List α} {s : α → F64} {t : α → ℚ} {δ η : ℚ} (h : TermErr l s t δ η) :
    |((l.map s).map FP.val).sum - (l.map t).sum| ≤ δ * (l.map t).sum + l.length * η := by
  induction l with
  | nil => simp
  | cons x l ih =>
    have h' : TermErr l s t δ η := ⟨fun y hy => h.fin y (by simp [hy]), fun y hy => h.nonneg y (by simp [hy]),
      fun y hy => h.texact y (by simp [hy]), fun y hy => h.err y (by simp [hy])⟩
    have h1 := ih h'
    have h2 := h.err x (by simp)
    simp only [List.map_cons, List.sum_cons, List.length_cons]
    push_cast
    have e : (s x).val + ((l.map s).map FP.val).sum - (t x + (l.map t).sum) =
        ((s x).val - t x) + (((l.map s).map FP.val).sum - (l.map t).sum) := by ring
    rw [e]
    refine le_trans (abs_add_le _ _) ?_
    have e2 : δ * (t x + (l.map t).sum) + (l.length + 1 : ℚ) * η = (δ * t x + η) + (δ * (l.map t).sum + l.length * η) := by ring
    rw [e2]
    exact add_le_add h2 h1

theorem qpow_le {a b : Nat} (h : a ≤ b) : (2 : ℚ) ^ a ≤ 2 ^ b := pow_le_pow_right₀ (by norm_num) h

theorem pow_900 : (2 : ℚ) ^ 900 + 2 ^ 900 + 2 ^ 50 ≤ 2 ^ 1000 := by
  have h1 : (2 : ℚ) ^ 50 ≤ 2 ^ 900 := qpow_le (by norm_num)
  have h2 : (2 : ℚ) ^ 902 ≤ 2 ^ 1000 := qpow_le (by norm_num)
  have h3 : (2 : ℚ) ^ 902 = 2 ^ 900 * 4 := by rw [pow_add 2 900 2]; norm_num
  have h0 : (0 : ℚ) < 2 ^ 900 := pow_pos (by norm_num) _
  refine le_trans ?_ h2
  rw [h3]
  clear h2 h3
  revert h0 h1
  generalize (2 : ℚ) ^ 900 = A
  intro h0 h1
  linarith

/-- Sum of approximated terms. -/
theorem fsum_approx {α : Type} {l : List α} {s : α → F64} {t : α → ℚ} {δ η : ℚ} (h : TermErr l s t δ η) (hlen : l.length ≤ 2 ^ 50)
    (hδ0 : 0 ≤ δ) (hδ : δ ≤ 1) (hη0 : 0 ≤ η) (hη : η ≤ 1) (hT : (l.map t).sum ≤ 2 ^ 900) :
    (fsum (l.map s)).isFinite = true ∧ 0 ≤ (fsum (l.map s)).val ∧
      |(fsum (l.map s)).val - (l.map t).sum| ≤ (δ + 4 * l.length * u64) * (l.map t).sum + 2 * l.length * η := by
  have hs := terms_sum h
  have hT0 := h.sum_nonneg
  have hk : (l.length : ℚ) ≤ 2 ^ 50 := by exact_mod_cast hlen
  have hk0 : (0 : ℚ) ≤ l.length := Nat.cast_nonneg _
  have hu := u64_pos
  have hku : 2 * (l.length : ℚ) * u64 ≤ 1 / 4 := by have := u64_small; nlinarith
  have hS0 : 0 ≤ ((l.map s).map FP.val).sum := by
    apply List.sum_nonneg
    intro v hv
    obtain ⟨y, hy, rfl⟩ := List.mem_map.1 hv
    obtain ⟨x, hx, rfl⟩ := List.mem_map.1 hy
    exact h.nonneg x hx
  have hsB : ((l.map s).map FP.val).sum ≤ 2 ^ 1000 := by
    have h1 := (abs_le.1 hs).2
    have h2 : δ * (l.map t).sum ≤ (l.map t).sum := by nlinarith
    have h3 : (l.length : ℚ) * η ≤ 2 ^ 50 := by nlinarith
    have h5 : ((l.map s).map FP.val).sum ≤ (l.map t).sum + (l.map t).sum + 2 ^ 50 := by
      clear hT; linarith
    exact le_trans h5 (le_trans (add_le_add (add_le_add hT hT) le_rfl) pow_900)
  obtain ⟨hf, he⟩ := fsum_err (l.map s) (by
    intro y hy
    obtain ⟨x, hx, rfl⟩ := List.mem_map.1 hy
    exact ⟨h.fin x hx, h.nonneg x hx⟩) (by simpa using hlen) hsB
  rw [List.length_map] at he
  clear hsB hT hη hlen hk
  generalize ((l.map s).map FP.val).sum = S at *
  generalize (l.map t).sum = T at *
  generalize (l.length : ℚ) = k at *
  generalize (fsum (l.map s)).val = R at *
  have ⟨e1, e2⟩ := abs_le.1 he
  have ⟨s1, s2⟩ := abs_le.1 hs
  have hkS : 2 * k * u64 * S ≤ 1 / 4 * S := mul_le_mul_of_nonneg_right hku hS0
  refine ⟨hf, by linarith, ?_⟩
  refine le_trans (abs_sub_le R S T) ?_
  have hS2 : S ≤ 2 * T + k * η := by nlinarith
  have h1 : 2 * k * u64 * S ≤ 2 * k * u64 * (2 * T + k * η) := mul_le_mul_of_nonneg_left hS2 (by positivity)
  have h2 : 2 * k * u64 * (k * η) ≤ 1 / 4 * (k * η) := mul_le_mul_of_nonneg_right hku (by positivity)
  have h3 : 0 ≤ k * η := by positivity
  nlinarith

theorem tiny_nonneg (a : Nat) : (0 : ℚ) ≤ 1 / 2 ^ a := by positivity

/-- Division of a float by a positive float, both known up to errors: only the rounding of the quotient is bounded here. -/
theorem div_close {a b : F64} (ha : a.isFinite = true) (hb : b.isFinite = true) (hb0 : 0 < b.val) (ha0 : 0 ≤ a.val) (h : a.val / b.val ≤ 2 ^ 1023) :
    (a.div b).isFinite = true ∧ |(a.div b).val - a.val / b.val| ≤ u64 * (a.val / b.val) + 1 / 2 ^ 1075 := by
  have h0 : 0 ≤ a.val / b.val := div_nonneg ha0 hb0.le
  obtain ⟨hf, he⟩ := div_err ha hb hb0.ne' (by rw [abs_of_nonneg h0]; exact h)
  refine ⟨hf, le_trans he (le_trans (ulpErr_le _) ?_)⟩
  rw [abs_of_nonneg h0]
  have : a.val / b.val / 2 ^ 53 = u64 * (a.val / b.val) := by unfold u64; ring
  rw [this, add_comm]

/-- Mean of approximated terms. -/
theorem mean_approx {α : Type} {l : List α} {s : α → F64} {t : α → ℚ} {δ η : ℚ} (h : TermErr l s t δ η) (hl1 : 1 ≤ l.length) (hlen : l.length ≤ 2 ^ 50)
    (hδ0 : 0 ≤ δ) (hδ : δ ≤ 1) (hη0 : 0 ≤ η) (hη : η ≤ 1) (hT : (l.map t).sum ≤ 2 ^ 900) :
    ((fsum (l.map s)).div (F64.lit (l.length : Nat))).isFinite = true ∧
      |((fsum (l.map s)).div (F64.lit (l.length : Nat))).val - (l.map t).sum / l.length| ≤
        (δ + (4 * l.length + 3) * u64) * ((l.map t).sum / l.length) + 3 * η + 1 / 2 ^ 1075 := by
  obtain ⟨hf, h0, he⟩ := fsum_approx h hlen hδ0 hδ hη0 hη hT
  have hT0 := h.sum_nonneg
  have hlit : (F64.lit (l.length : Nat)).val = l.length := by
    rw [lit_val' (by
      rw [Int.natAbs_natCast]
      exact le_trans hlen (Nat.pow_le_pow_right (by norm_num) (by norm_num)))]
    simp
  have hlitf : (F64.lit (l.length : Nat)).isFinite = true := (F64.lit_exact (by
      rw [Int.natAbs_natCast]
      exact le_trans hlen (Nat.pow_le_pow_right (by norm_num) (by norm_num)))).2
  have hk1 : (1 : ℚ) ≤ l.length := by exact_mod_cast hl1
  have hk : (l.length : ℚ) ≤ 2 ^ 50 := by exact_mod_cast hlen
  have hu := u64_pos
  have hku : 4 * (l.length : ℚ) * u64 ≤ 1 / 2 := by have := u64_small; nlinarith
  have hbound : (fsum (l.map s)).val / (F64.lit (l.length : Nat)).val ≤ 2 ^ 1023 := by
    rw [hlit, div_le_iff₀ (by linarith)]
    have h2 : (2 : ℚ) ^ 1000 ≤ 2 ^ 1023 := qpow_le (by norm_num)
    have h3 : (fsum (l.map s)).val ≤ 2 ^ 1000 := by
      have h1 := (abs_le.1 he).2
      have h6 : (δ + 4 * l.length * u64) * (l.map t).sum ≤ 3 / 2 * (l.map t).sum := mul_le_mul_of_nonneg_right (by linarith) hT0
      have h7 : 2 * (l.length : ℚ) * η ≤ 2 * 2 ^ 50 := by nlinarith
      have h5 : (fsum (l.map s)).val ≤ 3 * ((l.map t).sum + (l.map t).sum + 2 ^ 50) := by
        clear hT h2; linarith
      refine le_trans h5 (le_trans (mul_le_mul_of_nonneg_left (add_le_add (add_le_add hT hT) le_rfl) (by norm_num)) ?_)
      have h1 : (2 : ℚ) ^ 50 ≤ 2 ^ 900 := qpow_le (by norm_num)
      have h2 : (2 : ℚ) ^ 904 ≤ 2 ^ 1000 := qpow_le (by norm_num)
      have h3 : (2 : ℚ) ^ 904 = 2 ^ 900 * 16 := by rw [pow_add 2 900 4]; norm_num
      have h0 : (0 : ℚ) < 2 ^ 900 := pow_pos (by norm_num) _
      refine le_trans ?_ h2
      rw [h3]
      clear h2 h3
      revert h0 h1
      generalize (2 : ℚ) ^ 900 = A
      intro h0 h1
      linarith
    have h4 : (0 : ℚ) ≤ 2 ^ 1023 := (pow_pos (by norm_num) _).le
    exact le_trans h3 (le_trans h2 (le_mul_of_one_le_right h4 hk1))
  obtain ⟨hdf, hde⟩ := div_close hf hlitf (by rw [hlit]; linarith) h0 hbound
  refine ⟨hdf, ?_⟩
  rw [hlit] at hde
  refine le_trans (abs_sub_le _ ((fsum (l.map s)).val / l.length) _) ?_
  have e1 : |(fsum (l.map s)).val / l.length - (l.map t).sum / l.length| ≤ (δ + 4 * l.length * u64) * ((l.map t).sum / l.length) + 2 * η := by
    rw [← sub_div, abs_div, abs_of_pos (show (0 : ℚ) < l.length by linarith), div_le_iff₀ (by linarith)]
    refine le_trans he (le_of_eq ?_)
    have : (l.length : ℚ) ≠ 0 := by linarith
    field_simp
  clear hbound hT
  have hq0 : 0 ≤ (l.map t).sum / l.length := div_nonneg hT0 (by linarith)
  generalize (fsum (l.map s)).val / (l.length : ℚ) = Q at *
  generalize (l.map t).sum / (l.length : ℚ) = q at *
  have ⟨a1, a2⟩ := abs_le.1 e1
  have hQ : Q ≤ 5 / 2 * q + 2 * η := by
    have : (δ + 4 * l.length * u64) * q ≤ 3 / 2 * q := mul_le_mul_of_nonneg_right (by linarith) hq0
    linarith
  have hu2 : u64 * Q ≤ u64 * (5 / 2 * q + 2 * η) := mul_le_mul_of_nonneg_left hQ hu.le
  have hu3 : u64 * (2 * η) ≤ 1 * η := by
    have : u64 * 2 ≤ 1 := by have := u64_small; nlinarith
    nlinarith
  have hu4 : 0 ≤ u64 * q := mul_nonneg hu.le hq0
  generalize (1 : ℚ) / 2 ^ 1075 = z at *
  nlinarith

/-- Ratio of two positive numbers known up to the relative error `ρ` (and an absolute one for the numerator). -/
theorem ratio_close {U D T1 T2 ρ α : ℚ} (hT1 : 0 ≤ T1) (hT2 : 0 < T2) (hρ0 : 0 ≤ ρ) (hρ : ρ ≤ 1 / 2) (hα : 0 ≤ α)
    (hU : |U - T1| ≤ ρ * T1 + α) (hD : |D - T2| ≤ ρ * T2) : 0 < D ∧ |U / D - T1 / T2| ≤ 4 * ρ * (T1 / T2) + 2 * (α / T2) := by
  have ⟨u1, u2⟩ := abs_le.1 hU
  have ⟨d1, d2⟩ := abs_le.1 hD
  have hD0 : 0 < D := by nlinarith
  have hD2 : T2 / 2 ≤ D := by nlinarith
  refine ⟨hD0, ?_⟩
  have e : U / D - T1 / T2 = ((U - T1) * T2 - T1 * (D - T2)) / (D * T2) := by
    field_simp; ring
  rw [e, abs_div, abs_of_pos (mul_pos hD0 hT2), div_le_iff₀ (mul_pos hD0 hT2)]
  have h1 : |(U - T1) * T2 - T1 * (D - T2)| ≤ (ρ * T1 + α) * T2 + T1 * (ρ * T2) := by
    refine le_trans (abs_sub _ _) ?_
    rw [abs_mul, abs_mul, abs_of_pos hT2, abs_of_nonneg hT1]
    exact add_le_add (mul_le_mul_of_nonneg_right hU hT2.le) (mul_le_mul_of_nonneg_left hD hT1)
  refine le_trans h1 ?_
  have e2 : (4 * ρ * (T1 / T2) + 2 * (α / T2)) * (D * T2) = (4 * ρ * T1 + 2 * α) * D := by field_simp
  rw [e2]
  have : (4 * ρ * T1 + 2 * α) * (T2 / 2) ≤ (4 * ρ * T1 + 2 * α) * D := mul_le_mul_of_nonneg_left hD2 (by positivity)
  nlinarith

/-- Float quotient of two sums known up to errors. -/
theorem ratio_round {U D : F64} {T1 T2 ρ α w : ℚ} (uf : U.isFinite = true) (df : D.isFinite = true) (u0 : 0 ≤ U.val) (hT1 : 0 ≤ T1) (hT2 : 0 < T2)
    (hρ0 : 0 ≤ ρ) (hρ : ρ ≤ 1 / 4) (hα : 0 ≤ α) (hU : |U.val - T1| ≤ ρ * T1 + α) (hD : |D.val - T2| ≤ ρ * T2) (hw : α ≤ w * T2)
    (hbig : 2 * (T1 / T2) + 2 * w ≤ 2 ^ 1023) :
    0 < D.val ∧ (U.div D).isFinite = true ∧ |(U.div D).val - T1 / T2| ≤ (4 * ρ + 2 * u64) * (T1 / T2) + 3 * w + 1 / 2 ^ 1075 := by
  obtain ⟨hD0, hr⟩ := ratio_close hT1 hT2 hρ0 (by linarith) hα hU hD
  have hq0 : 0 ≤ T1 / T2 := div_nonneg hT1 hT2.le
  have ha : α / T2 ≤ w := by rw [div_le_iff₀ hT2]; exact hw
  have hw0 : 0 ≤ w := le_trans (div_nonneg hα hT2.le) ha
  have ⟨r1, r2⟩ := abs_le.1 hr
  have hc : 4 * ρ * (T1 / T2) ≤ 1 * (T1 / T2) := mul_le_mul_of_nonneg_right (by linarith) hq0
  have hQ : U.val / D.val ≤ 2 * (T1 / T2) + 2 * w := by clear hbig; linarith
  obtain ⟨e1, e2⟩ := div_close uf df hD0 u0 (le_trans hQ hbig)
  refine ⟨hD0, e1, ?_⟩
  clear hbig
  have tri := abs_sub_le (U.div D).val (U.val / D.val) (T1 / T2)
  have hu := u64_pos
  have hu2 : 2 * u64 ≤ 1 := by have := u64_small; nlinarith
  have h9 : u64 * (U.val / D.val) ≤ u64 * (2 * (T1 / T2) + 2 * w) := mul_le_mul_of_nonneg_left hQ hu.le
  have h10 : 2 * u64 * w ≤ 1 * w := mul_le_mul_of_nonneg_right hu2 hw0
  generalize (1 : ℚ) / 2 ^ 1075 = z at *
  generalize T1 / T2 = q at *
  generalize U.val / D.val = Q at *
  linarith

end Atsc
