import Verif.Lemmas.FloatVal
/- `f64::round` is exact. -/
namespace Atsc
open FP

theorem FP.absVal_dvd_of_large {mb eb : Nat} (x : FP mb eb) (h : 2 ^ mb * 2 ^ qexp mb eb ≤ x.absVal) :
    2 ^ qexp mb eb ∣ x.absVal := by
  have hq := qpow_pos mb eb
  by_cases he : x.mag.val / 2 ^ mb = 0
  · have hlt : x.mag.val < 2 ^ mb := by
      rcases Nat.div_eq_zero_iff.1 he with h | h
      · exact absurd h (ne_of_gt (Nat.two_pow_pos _))
      · exact h
    have : x.absVal < 2 ^ mb := by
      unfold absVal; rw [magVal_small (by rw [pow_succ]; omega)]; exact hlt
    have : 2 ^ mb * 1 ≤ 2 ^ mb * 2 ^ qexp mb eb := Nat.mul_le_mul_left _ hq
    omega
  · have hn := magVal_normal (mb := mb) (k := x.mag.val) (Nat.one_le_iff_ne_zero.2 he)
    have hm : x.mag.val % 2 ^ mb < 2 ^ mb := Nat.mod_lt _ (Nat.two_pow_pos _)
    unfold absVal at *
    rw [hn] at h ⊢
    generalize x.mag.val / 2 ^ mb - 1 = s at *
    generalize x.mag.val % 2 ^ mb = m at *
    have hs : qexp mb eb ≤ s := by
      by_contra hlt
      have h1 : (m + 2 ^ mb) * 2 ^ s < 2 ^ (mb + 1) * 2 ^ s :=
        Nat.mul_lt_mul_of_pos_right (by rw [pow_succ]; omega) (Nat.two_pow_pos _)
      have h2 : 2 ^ (mb + 1) * 2 ^ s ≤ 2 ^ mb * 2 ^ qexp mb eb := by
        rw [← pow_add, ← pow_add]; exact Nat.pow_le_pow_right (by decide) (by omega)
      omega
    exact Dvd.dvd.mul_left (Nat.pow_dvd_pow 2 hs) _

/-- `round` of a finite float: the integer `⌊|x| + 1/2⌋` with the sign of `x`, exactly. -/
theorem FP.round_exact {mb eb : Nat} (hr : qexp mb eb < 2 ^ eb - 2) (x : FP mb eb) (hx : x.isFinite = true) :
    x.round.isFinite = true ∧ x.round.sign = x.sign ∧
      x.round.absVal = (2 * x.absVal + 2 ^ qexp mb eb) / (2 * 2 ^ qexp mb eb) * 2 ^ qexp mb eb := by
  have hq := qpow_pos mb eb
  have hki : x.mag.val < infMag mb eb := by simpa [isFinite] using hx
  obtain ⟨k, hk, hkf⟩ : ∃ k, magVal mb k = (2 * x.absVal + 2 ^ qexp mb eb) / (2 * 2 ^ qexp mb eb) * 2 ^ qexp mb eb ∧
      k < infMag mb eb := by
    by_cases hl : x.absVal < 2 ^ mb * 2 ^ qexp mb eb
    · have hn : (2 * x.absVal + 2 ^ qexp mb eb) / (2 * 2 ^ qexp mb eb) ≤ 2 ^ mb := by
        apply Nat.le_of_lt_succ
        rw [Nat.div_lt_iff_lt_mul (by omega)]
        have : (2 ^ mb).succ * (2 * 2 ^ qexp mb eb) = 2 * (2 ^ mb * 2 ^ qexp mb eb) + 2 * 2 ^ qexp mb eb := by
          rw [Nat.succ_eq_add_one]; ring
        omega
      obtain ⟨k, hk⟩ := exists_pat_mul_pow mb (s := qexp mb eb) (Nat.le_trans hn (Nat.pow_le_pow_right (by decide) (by omega : mb ≤ mb + 1)))
      refine ⟨k, hk, (magVal_lt_iff (mb := mb)).1 ?_⟩
      have heb : 1 ≤ eb := by
        by_contra h0
        have : eb = 0 := by omega
        subst this
        simp at hr
      rw [hk, magVal_infMag mb heb]
      exact Nat.lt_of_le_of_lt (Nat.mul_le_mul_right _ hn)
        (Nat.mul_lt_mul_of_pos_left (Nat.pow_lt_pow_right (by decide) hr) (Nat.two_pow_pos _))
    · obtain ⟨c, hc⟩ := x.absVal_dvd_of_large (by omega)
      refine ⟨x.mag.val, ?_, hki⟩
      have : (2 * x.absVal + 2 ^ qexp mb eb) / (2 * 2 ^ qexp mb eb) = c := by
        rw [hc]
        generalize 2 ^ qexp mb eb = Q at *
        apply Nat.div_eq_of_lt_le
        · have : c * (2 * Q) = 2 * (Q * c) := by ring
          omega
        · have : (c + 1) * (2 * Q) = 2 * (Q * c) + 2 * Q := by ring
          omega
      rw [this, Nat.mul_comm, ← hc]
      rfl
  have he : x.round = ofPat x.sign k := by
    unfold round
    rw [hx]
    simp only [if_true]
    exact ofRound_exact Nat.one_pos (by omega) (by rw [hk]; simp)
  rw [he]
  refine ⟨by simp [isFinite, ofPat_mag]; omega, rfl, ?_⟩
  rw [absVal_ofPat (by omega), hk]

theorem floor_half (A Q : Nat) (hQ : 0 < Q) : ⌊(A : ℚ) / Q + 1 / 2⌋ = (((2 * A + Q) / (2 * Q) : Nat) : Int) := by
  have hQ' : (Q : ℚ) ≠ 0 := by exact_mod_cast (ne_of_gt hQ)
  have : (A : ℚ) / Q + 1 / 2 = (((2 * A + Q : Nat) : Int) : ℚ) / ((2 * Q : Nat) : ℚ) := by
    push_cast; field_simp
  rw [this, Rat.floor_intCast_div_natCast]
  rfl

/-- `f64::round` computes round-half-away-from-zero exactly. -/
theorem FP.round_val {mb eb : Nat} (h2 : 2 ≤ eb) (hr : qexp mb eb < 2 ^ eb - 2) (x : FP mb eb)
    (hx : x.isFinite = true) : x.round.isFinite = true ∧ x.round.val = roundHalfAway x.val := by
  obtain ⟨h3, h4, h5⟩ := x.round_exact hr hx
  refine ⟨h3, ?_⟩
  rw [val_eq_int h2]
  unfold roundHalfAway
  have hfl := floor_half x.absVal (2 ^ qexp mb eb) (qpow_pos mb eb)
  push_cast at hfl
  have hv := abs_val h2 x
  rw [← hv] at hfl
  have hval := val_eq h2 x
  have hqQ := qpow_posQ mb eb
  unfold scaled
  rw [h5, h4]
  unfold scaled at hval
  cases hs : x.sign with
  | false =>
    have hnn : ¬ x.val < 0 := by
      rw [hval, hs]; simp; positivity
    rw [abs_of_nonneg (not_lt.1 hnn)] at hfl
    simp only [hnn, Bool.false_eq_true, if_false, hfl]
    push_cast; rfl
  | true =>
    have hnp : x.val ≤ 0 := by
      rw [hval, hs]; simp only [if_true]; push_cast
      rw [neg_div]; simp; positivity
    rw [abs_of_nonpos hnp] at hfl
    by_cases h0 : x.val < 0
    · simp only [h0, if_true]
      rw [show (1 : ℚ) / 2 - x.val = -x.val + 1 / 2 by ring, hfl]
      push_cast; ring
    · have hz : x.val = 0 := le_antisymm hnp (not_lt.1 h0)
      have hA : x.absVal = 0 := by
        rw [hz, abs_zero, eq_comm, div_eq_zero_iff] at hv
        rcases hv with h | h
        · exact_mod_cast h
        · exact absurd h (ne_of_gt hqQ)
      simp only [hz, hA]
      have : (2 * 0 + 2 ^ qexp mb eb) / (2 * 2 ^ qexp mb eb) = 0 := by
        apply Nat.div_eq_of_lt; have := qpow_pos mb eb; omega
      rw [this]
      norm_num

end Atsc
