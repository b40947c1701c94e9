import Verif.Lemmas.FloatErr
/- Casts between single and double precision, in terms of the rational values. -/
namespace Atsc
open FP

theorem cvt_finite_eq {mb eb mb' eb' : Nat} {x : FP mb eb} (h : x.isFinite = true) :
    (FP.cvt x : FP mb' eb') = ofRound x.sign (x.absVal * 2 ^ qexp mb' eb') (2 ^ qexp mb eb) := by
  unfold FP.cvt
  rw [isFinite_not_nan h, isFinite_not_inf h]
  rfl

/-- `f64 as f32` of a number below `2^127`. -/
theorem narrow_err {x : F64} (hx : x.isFinite = true) (hb : |x.val| ≤ 2 ^ 127) :
    (FP.cvt x : F32).isFinite = true ∧ |(FP.cvt x : F32).val - x.val| ≤ max (1 / 2 ^ 150) (|x.val| / 2 ^ 24) := by
  obtain ⟨k, hk⟩ := exists_pat_mul_pow 23 (m := 1) (s := 127 + qexp 23 8) (by decide)
  have hk2 : k < infMag 23 8 := by
    apply (magVal_lt_iff (mb := 23)).1
    rw [hk, magVal_infMag 23 (by decide), one_mul, ← pow_add]
    exact Nat.pow_lt_pow_right (by decide) (by decide)
  rw [cvt_finite_eq hx]
  have hv := val_sgn (by decide) x
  have ha := abs_val (by decide) x
  have e : ((x.absVal * 2 ^ qexp 23 8 : Nat) : ℚ) / ((2 ^ qexp 52 11 : Nat) : ℚ) / 2 ^ qexp 23 8 = (x.absVal : ℚ) / 2 ^ qexp 52 11 := by
    push_cast
    have := (qpow_posQ 23 8).ne'
    field_simp
  have hle : x.absVal * 2 ^ qexp 23 8 ≤ magVal 23 k * 2 ^ qexp 52 11 := by
    rw [ha, div_le_iff₀ (qpow_posQ 52 11)] at hb
    have : x.absVal ≤ 2 ^ 127 * 2 ^ qexp 52 11 := by exact_mod_cast hb
    rw [hk, one_mul, pow_add]
    calc x.absVal * 2 ^ qexp 23 8 ≤ (2 ^ 127 * 2 ^ qexp 52 11) * 2 ^ qexp 23 8 := Nat.mul_le_mul_right _ this
      _ = _ := by ring
  have := ofRound_err (mb := 23) (eb := 8) (by decide) x.sign (qpow_pos 52 11) hk2 hle
  rw [e, ← hv, ← ha] at this
  have hq1 : qexp 23 8 + 1 = 150 := by decide
  rw [hq1] at this
  exact this

theorem pow_sum (a b c : Nat) : 2 ^ a * 2 ^ b * 2 ^ c = 2 ^ (a + b + c) := by rw [pow_add, pow_add]

theorem widen_pat (m : Nat) (hm : m < infMag 23 8) : ∃ k, k < infMag 52 11 ∧ magVal 52 k = magVal 23 m * 2 ^ 925 := by
  have hsh : m - magShift 23 m * 2 ^ 23 ≤ 2 ^ (52 + 1) := by
    have h8 : infMag 23 8 < 2 ^ 53 := by decide
    omega
  obtain ⟨k, hk⟩ := exists_pat_mul_pow 52 (m := m - magShift 23 m * 2 ^ 23) (s := magShift 23 m + 925) hsh
  have hk' : magVal 52 k = magVal 23 m * 2 ^ 925 := by
    rw [hk]; unfold magVal; rw [Nat.mul_assoc, ← pow_add]
  refine ⟨k, ?_, hk'⟩
  apply (magVal_lt_iff (mb := 52)).1
  have h1 := (magVal_lt_iff (mb := 23)).2 hm
  rw [hk']
  refine lt_of_lt_of_le (Nat.mul_lt_mul_of_pos_right h1 (Nat.two_pow_pos _)) ?_
  rw [magVal_infMag 23 (by decide), magVal_infMag 52 (by decide)]
  first
  | (rw [pow_sum, ← pow_add]; exact Nat.pow_le_pow_right (Nat.succ_pos 1) (by decide))
  | (rw [← pow_add]; exact Nat.pow_le_pow_right (Nat.succ_pos 1) (by decide))

theorem scale_div (A u Q : Nat) : ((A * 2 ^ u : Nat) : ℚ) / 2 ^ (u + Q) = (A : ℚ) / 2 ^ Q := by
  rw [pow_add, Nat.cast_mul, Nat.cast_pow, Nat.cast_ofNat, mul_comm (A : ℚ)]
  exact mul_div_mul_left _ _ (pow_ne_zero _ two_ne_zero)

/-- `f32 as f64` is exact. -/
theorem widen_val {x : F32} (hx : x.isFinite = true) : (FP.cvt x : F64).isFinite = true ∧ (FP.cvt x : F64).val = x.val := by
  have hm : x.mag.val < infMag 23 8 := by simpa [isFinite] using hx
  obtain ⟨k, hkinf, hk'⟩ := widen_pat _ hm
  have hq : qexp 52 11 = 925 + qexp 23 8 := by decide
  have hk'' : magVal 52 k = x.absVal * 2 ^ 925 := hk'
  have hnum : x.absVal * 2 ^ qexp 52 11 = magVal 52 k * 2 ^ qexp 23 8 := by rw [hk'', hq, pow_add, Nat.mul_assoc]
  rw [cvt_finite_eq hx, hnum]
  have hp : (ofRound x.sign (magVal 52 k * 2 ^ qexp 23 8) (2 ^ qexp 23 8) : F64) = ofPat x.sign k := by
    unfold ofRound; rw [roundPat_exact 52 k (qpow_pos 23 8)]
  rw [hp]
  refine ⟨by simp [isFinite, ofPat_mag]; omega, ?_⟩
  rw [val_sgn (by decide), val_sgn (by decide)]
  have h1 : (ofPat x.sign k : F64).absVal = magVal 52 k := absVal_ofPat (by omega)
  have h2 : (ofPat x.sign k : F64).sign = x.sign := rfl
  rw [h1, h2, hk'', hq, scale_div]

end Atsc
