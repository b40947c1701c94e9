import Verif.Props.Accuracy
import Verif.Props.MetricLaws
/- C77: what an error of zero means for the metrics other than MAPE. -/
namespace Atsc
open FP

/-- A computed value of 0 is only possible when the exact one is below `2 * 2^-1070`. -/
theorem close_zero {c : ℚ} {r : F64} {v : ℚ} (hv : 0 ≤ v) (hc : c ≤ 2 ^ 52) (h : Close c r v) (h0 : r.val = 0) : v ≤ 1 / 2 ^ 1069 := by
  have h2 := h.2
  rw [h0, zero_sub, abs_neg, abs_of_nonneg hv] at h2
  have e : (1 : ℚ) / 2 ^ 1069 = 2 * (1 / 2 ^ 1070) := by
    rw [pow_succ (2 : ℚ) 1069]
    have : (0 : ℚ) < 2 ^ 1069 := pow_pos (by norm_num) _
    generalize (2 : ℚ) ^ 1069 = A at *
    field_simp
  have h3 : c / 2 ^ 53 ≤ 1 / 2 := by
    rw [div_le_iff₀ (by positivity)]
    have : (1 / 2 : ℚ) * 2 ^ 53 = 2 ^ 52 := by norm_num
    rw [this]; exact hc
  have h4 : c / 2 ^ 53 * v ≤ 1 / 2 * v := mul_le_mul_of_nonneg_right h3 hv
  rw [e]
  generalize (1 : ℚ) / 2 ^ 1070 = z at *
  linarith

theorem term_le_sum {f : F64 → F64 → ℚ} (hf : ∀ x y, 0 ≤ f x y) : ∀ (o g : List F64) (i : Nat) (h1 : i < o.length) (h2 : i < g.length),
    f o[i] g[i] ≤ (List.zipWith f o g).sum := by
  intro o g i h1 h2
  apply List.single_le_sum
  · intro x hx
    obtain ⟨k, hk, rfl⟩ := List.getElem_of_mem hx
    rw [List.getElem_zipWith]; exact hf _ _
  · rw [List.mem_iff_getElem]
    exact ⟨i, by rw [List.length_zipWith]; omega, by rw [List.getElem_zipWith]⟩

theorem zipWith_sum_nonneg {f : F64 → F64 → ℚ} (hf : ∀ x y, 0 ≤ f x y) (o g : List F64) : 0 ≤ (List.zipWith f o g).sum := by
  apply List.sum_nonneg
  intro x hx
  obtain ⟨k, hk, rfl⟩ := List.getElem_of_mem hx
  rw [List.getElem_zipWith]; exact hf _ _

/-- **C77**, the absolute error: if it is reported as 0, no two samples differ by more than `n * 2^-1069` (in particular equal unless they are among the few
smallest numbers a double can hold). -/
theorem C77_zero_mae (o g : List F64) (hl : o.length = g.length) (h2 : o.length ≤ 2 ^ 40) (ho : Moderate o) (hg : Moderate g) (r : F64)
    (h : errorMae o g = .ok r) (h0 : r.val = 0) (i : Nat) (hi : i < o.length) (hi' : i < g.length) :
    |g[i].val - o[i].val| ≤ o.length * (1 / 2 ^ 1069) := by
  have hn : (0 : ℚ) < o.length := by exact_mod_cast (show 0 < o.length by omega)
  obtain ⟨r', k1, k2⟩ := C67_mae o g hl (by omega) (le_trans h2 (by norm_num)) ho hg
  rw [h] at k1
  obtain rfl := Except.ok.inj k1
  have hs := zipWith_sum_nonneg (f := fun x y => |y.val - x.val|) (fun x y => abs_nonneg _) o g
  have hlen : (o.length : ℚ) ≤ 1099511627776 := by exact_mod_cast (show o.length ≤ 1099511627776 from h2)
  have hz := close_zero (div_nonneg hs hn.le) (by norm_num; linarith) k2 h0
  rw [div_le_iff₀ hn, mul_comm] at hz
  exact le_trans (term_le_sum (f := fun x y => |y.val - x.val|) (fun x y => abs_nonneg _) o g i hi hi') hz

/-- **C77**, the squared error: if it is reported as 0, no squared difference is more than `n * 2^-1069`. -/
theorem C77_zero_mse (o g : List F64) (hl : o.length = g.length) (h2 : o.length ≤ 2 ^ 40) (ho : Moderate o) (hg : Moderate g) (r : F64)
    (h : errorMse o g = .ok r) (h0 : r.val = 0) (i : Nat) (hi : i < o.length) (hi' : i < g.length) :
    (g[i].val - o[i].val) ^ 2 ≤ o.length * (1 / 2 ^ 1069) := by
  have hn : (0 : ℚ) < o.length := by exact_mod_cast (show 0 < o.length by omega)
  obtain ⟨r', k1, k2⟩ := C67_mse o g hl (by omega) (le_trans h2 (by norm_num)) ho hg
  rw [h] at k1
  obtain rfl := Except.ok.inj k1
  have hs := zipWith_sum_nonneg (f := fun x y => (y.val - x.val) ^ 2) (fun x y => sq_nonneg _) o g
  have hlen : (o.length : ℚ) ≤ 1099511627776 := by exact_mod_cast (show o.length ≤ 1099511627776 from h2)
  have hz := close_zero (div_nonneg hs hn.le) (by norm_num; linarith) k2 h0
  rw [div_le_iff₀ hn, mul_comm] at hz
  exact le_trans (term_le_sum (f := fun x y => (y.val - x.val) ^ 2) (fun x y => sq_nonneg _) o g i hi hi') hz

/-- **C77**, the symmetric percentage error: if it is reported as 0, no difference is more than `n * 2^-1069` of the total of the magnitudes. -/
theorem C77_zero_smape (o g : List F64) (hl : o.length = g.length) (h2 : o.length ≤ 2 ^ 40) (ho : Moderate o) (hg : Moderate g)
    (he : (∃ x ∈ o, x.val ≠ 0) ∨ ∃ x ∈ g, x.val ≠ 0) (r : F64)
    (h : errorSmape o g = .ok r) (h0 : r.val = 0) (i : Nat) (hi : i < o.length) (hi' : i < g.length) :
    |g[i].val - o[i].val| ≤ o.length * (1 / 2 ^ 1069) * (List.zipWith (fun x y => |x.val| + |y.val|) o g).sum := by
  have hn : (0 : ℚ) < o.length := by exact_mod_cast (show 0 < o.length by omega)
  obtain ⟨r', k1, k2⟩ := C67_smape o g hl (by omega) (le_trans h2 (by norm_num)) ho hg he
  rw [h] at k1
  obtain rfl := Except.ok.inj k1
  have hs := zipWith_sum_nonneg (f := fun x y => |y.val - x.val|) (fun x y => abs_nonneg _) o g
  have hnn : ∀ x y : F64, 0 ≤ |x.val| + |y.val| := fun x y => add_nonneg (abs_nonneg _) (abs_nonneg _)
  have hT := zipWith_sum_nonneg (f := fun x y => |x.val| + |y.val|) hnn o g
  have hpos : 0 < (List.zipWith (fun x y => |x.val| + |y.val|) o g).sum := by
    obtain ⟨k, ka, kb, hk⟩ : ∃ k, ∃ (ka : k < o.length) (kb : k < g.length), 0 < |o[k].val| + |g[k].val| := by
      rcases he with ⟨x, hx, hx0⟩ | ⟨x, hx, hx0⟩
      · obtain ⟨k, hk, rfl⟩ := List.getElem_of_mem hx
        exact ⟨k, hk, by omega, by have := abs_pos.2 hx0; have := abs_nonneg (g[k]'(by omega)).val; linarith⟩
      · obtain ⟨k, hk, rfl⟩ := List.getElem_of_mem hx
        exact ⟨k, by omega, hk, by have := abs_pos.2 hx0; have := abs_nonneg (o[k]'(by omega)).val; linarith⟩
    exact lt_of_lt_of_le hk (term_le_sum (f := fun x y => |x.val| + |y.val|) hnn o g k ka kb)
  have hlen : (o.length : ℚ) ≤ 1099511627776 := by exact_mod_cast (show o.length ≤ 1099511627776 from h2)
  have hz := close_zero (div_nonneg (div_nonneg hs hT) hn.le) (by norm_num; linarith) k2 h0
  rw [div_le_iff₀ hn, div_le_iff₀ hpos, mul_comm (1 / 2 ^ 1069 : ℚ)] at hz
  exact le_trans (term_le_sum (f := fun x y => |y.val - x.val|) (fun x y => abs_nonneg _) o g i hi hi') hz

/-- **C77**, the normalised squared error: if it is reported as 0, no squared difference is more than `2^-499` of the energy of the original. -/
theorem C77_zero_nmse (o g : List F64) (hl : o.length = g.length) (h2 : o.length ≤ 2 ^ 40) (ho : Moderate o) (hg : Moderate g)
    (he : 1 / 2 ^ 500 ≤ (o.map fun x => x.val ^ 2).sum) (hq : exactNmse o g ≤ 2 ^ 1000) (r : F64)
    (h : errorNmse o g = .ok r) (h0 : r.val = 0) (i : Nat) (hi : i < o.length) (hi' : i < g.length) :
    (g[i].val - o[i].val) ^ 2 ≤ 1 / 2 ^ 499 * (o.map fun x => x.val ^ 2).sum := by
  obtain ⟨r', k1, _, k2⟩ := C67_nmse o g hl (by omega) (le_trans h2 (by norm_num)) ho hg he hq
  rw [h] at k1
  obtain rfl := Except.ok.inj k1
  have hs := zipWith_sum_nonneg (f := fun x y => (y.val - x.val) ^ 2) (fun x y => sq_nonneg _) o g
  have hpos : 0 < (o.map fun x => x.val ^ 2).sum := lt_of_lt_of_le (by positivity) he
  have hlen : (o.length : ℚ) ≤ 1099511627776 := by exact_mod_cast (show o.length ≤ 1099511627776 from h2)
  have hv : 0 ≤ exactNmse o g := div_nonneg hs hpos.le
  rw [h0, zero_sub, abs_neg, abs_of_nonneg hv] at k2
  have hz : exactNmse o g ≤ 1 / 2 ^ 499 := by
    have e : (1 : ℚ) / 2 ^ 499 = 2 * (1 / 2 ^ 500) := by
      rw [pow_succ (2 : ℚ) 499]
      have : (0 : ℚ) < 2 ^ 499 := pow_pos (by norm_num) _
      generalize (2 : ℚ) ^ 499 = A at *
      field_simp
    have h3 : (16 * (o.length : ℚ) + 22) / 2 ^ 53 ≤ 1 / 2 := by
      rw [div_le_iff₀ (by positivity)]
      norm_num; linarith
    have h4 := mul_le_mul_of_nonneg_right h3 hv
    rw [e]
    generalize (1 : ℚ) / 2 ^ 500 = z at *
    linarith
  unfold exactNmse at hz
  rw [div_le_iff₀ hpos] at hz
  exact le_trans (term_le_sum (f := fun x y => (y.val - x.val) ^ 2) (fun x y => sq_nonneg _) o g i hi hi') hz

/-- Two different series with a reported error of 0: the hypotheses above can be met by series that differ. -/
example : errorMse [F64.lit 0, F64.lit 3] [FP.ofBits 1, F64.lit 3] = .ok FP.zero ∧ (FP.zero : F64).val = 0 := by
  refine ⟨by decide +kernel, ?_⟩
  rw [val_eq (by decide)]
  have : (FP.zero : F64).scaled = 0 := by decide +kernel
  rw [this]; simp

end Atsc
