import Verif.Props.Rounding
/- C32 for values so large that the product with the power of ten overflows. -/
namespace Atsc
open FP

theorem inf_eq {a : F64} (h : a.isInf = true) : a = FP.inf a.sign := by
  have h1 : a.mag.val = infMag 52 11 := by simpa [FP.isInf] using h
  obtain ⟨s, m⟩ := a
  unfold FP.inf FP.ofPat
  congr 1
  exact Fin.ext (h1.trans (Nat.min_self _).symm)

theorem roundF64_overflow {x : F64} {d : Nat} (hd : d ≤ 9) (hx : x.isFinite = true) (h : (x.mul (F64.lit (10 ^ d))).isInf = true) :
    roundF64 x d = FP.inf x.sign := by
  obtain ⟨-, hyf⟩ := lit10 hd
  have hys : (F64.lit (10 ^ d)).sign = false := by interval_cases d <;> decide +kernel
  have hs : (x.mul (F64.lit (10 ^ d))).sign = x.sign := by
    unfold FP.mul
    rw [isFinite_not_nan hx, isFinite_not_nan hyf, isFinite_not_inf hx, isFinite_not_inf hyf, hys]
    simp [FP.ofRound, FP.ofPat]
  unfold roundF64
  dsimp only
  rw [inf_eq h, hs]
  generalize F64.lit (10 ^ d) = y at *
  have hr : (FP.inf x.sign : F64).round = FP.inf x.sign := by cases x.sign <;> decide +kernel
  rw [hr]
  unfold FP.div
  have e1 : (FP.inf x.sign : F64).isNaN = false := by cases x.sign <;> decide +kernel
  have e2 : (FP.inf x.sign : F64).isInf = true := by cases x.sign <;> decide +kernel
  have e3 : (FP.inf x.sign : F64).sign = x.sign := by cases x.sign <;> rfl
  rw [e1, isFinite_not_nan hyf, e2, isFinite_not_inf hyf, hys, e3]
  simp

/-- **C32, beyond the largest number.** A finite `x` between the limits whose product with `10^d` overflows is not rounded: it becomes the upper limit, if positive,
or the lower limit, if negative. -/
theorem C32_overflow (x min max : F64) (d : Nat) (hd : d ≤ 9) (hx : x.isFinite = true) (h : (x.mul (F64.lit (10 ^ d))).isInf = true)
    (h1 : min.le x = true) (h2 : x.le max = true) : roundAndLimit x min max d = if x.sign then min else max := by
  rw [roundAndLimit_eq, roundF64_overflow hd hx h]
  obtain ⟨n1, -, l1⟩ := le_iff.1 h1
  obtain ⟨-, n2, l2⟩ := le_iff.1 h2
  have mono : ∀ (a : F64), a.isNaN = false → a.isInf = false → (FP.inf true : F64).scaled < a.scaled ∧ a.scaled < (FP.inf false : F64).scaled := by
    intro a hn hi
    have hm : a.mag.val < infMag 52 11 := by
      have h1 : a.mag.val ≤ infMag 52 11 := by simpa [FP.isNaN] using hn
      have h2 : a.mag.val ≠ infMag 52 11 := by simpa [FP.isInf] using hi
      omega
    have hv : a.absVal < (FP.inf true : F64).absVal := (magVal_lt_iff).2 hm
    have e1 : (FP.inf true : F64).scaled = -((FP.inf true : F64).absVal : Int) := rfl
    have e2 : (FP.inf false : F64).scaled = ((FP.inf true : F64).absVal : Int) := rfl
    rw [e1, e2]
    generalize (FP.inf true : F64).absVal = I at *
    unfold FP.scaled
    split_ifs <;> constructor <;> omega
  have hxn := mono x (isFinite_not_nan hx) (isFinite_not_inf hx)
  cases hs : x.sign with
  | true =>
    rw [if_pos rfl]
    by_cases hi : min.isInf = true
    · have e := inf_eq hi
      have : min.sign = true := by
        by_contra hc
        rw [Bool.not_eq_true] at hc
        rw [hc] at e
        rw [e] at l1
        omega
      rw [this] at e
      rw [e]
      have f1 : (FP.inf true : F64).lt (FP.inf true) = false := by decide +kernel
      have f2 : max.lt (FP.inf true : F64) = false := by
        unfold FP.lt
        have : ¬ max.scaled < (FP.inf true : F64).scaled := by omega
        simp [this]
      rw [if_neg (by rw [f1]; decide), if_neg (by rw [f2]; decide)]
    · have hm := mono min n1 (by simpa using hi)
      rw [if_pos (lt_iff.2 ⟨by decide +kernel, n1, hm.1⟩)]
  | false =>
    refine Eq.trans ?_ (if_neg (by decide)).symm
    have f0 : (FP.inf false : F64).lt min = false := by
      unfold FP.lt
      have : ¬ (FP.inf false : F64).scaled < min.scaled := by omega
      simp [this]
    rw [if_neg (by rw [f0]; decide)]
    by_cases hi : max.isInf = true
    · have e := inf_eq hi
      have : max.sign = false := by
        by_contra hc
        rw [Bool.not_eq_false] at hc
        rw [hc] at e
        rw [e] at l2
        omega
      rw [this] at e
      rw [e]
      have f1 : (FP.inf false : F64).lt (FP.inf false) = false := by decide +kernel
      rw [if_neg (by rw [f1]; decide)]
    · have hm := mono max n2 (by simpa using hi)
      rw [if_pos (lt_iff.2 ⟨n2, by decide +kernel, hm.2⟩)]

/-- `2^1020` between 0 and `2^1023`, rounded to five decimals, becomes `2^1023`. -/
example : (F64.lit (2 ^ 1020)).isFinite = true ∧ ((F64.lit (2 ^ 1020)).mul (F64.lit (10 ^ 5))).isInf = true ∧
    FP.zero.le (F64.lit (2 ^ 1020)) = true ∧ (F64.lit (2 ^ 1020)).le (F64.lit (2 ^ 1023)) = true ∧
    roundAndLimit (F64.lit (2 ^ 1020)) FP.zero (F64.lit (2 ^ 1023)) 5 = F64.lit (2 ^ 1023) := by decide +kernel

/-- A correctly rounded result that is finite is within `ulpErr` of the exact one. -/
theorem ofRound_err_fin (s : Bool) {p q : Nat} (hq : 0 < q) {v : ℚ} (hv : v = sgn s * ((p : ℚ) / q / 2 ^ qexp 52 11))
    (hf : (ofRound s p q : F64).isFinite = true) : |(ofRound s p q : F64).val - v| ≤ ulpErr v := by
  have hr : roundPat 52 p q < infMag 52 11 := by
    by_contra hc
    have : (ofRound s p q : F64).mag.val = infMag 52 11 := by
      unfold ofRound; rw [ofPat_mag]; omega
    have h2 : (ofRound s p q : F64).mag.val < infMag 52 11 := by simpa [isFinite] using hf
    omega
  have habs : |v| = (p : ℚ) / q / 2 ^ qexp 52 11 := by
    rw [hv, abs_mul, abs_sgn, one_mul,
      abs_of_nonneg (div_nonneg (div_nonneg (Nat.cast_nonneg _) (Nat.cast_nonneg _)) (qpow_posQ 52 11).le)]
  have hQ := qpow_posQ 52 11
  rw [hv, val_sgn (by decide), ofRound_sign, ← mul_sub, abs_mul, abs_sgn, one_mul, ← hv]
  have : (ofRound s p q : F64).absVal = magVal 52 (roundPat 52 p q) := absVal_ofPat (by omega)
  rw [this, ← sub_div, abs_div, abs_of_pos hQ, div_le_iff₀ hQ]
  refine le_trans (roundPat_err 52 p hq) ?_
  unfold ulpErr
  rw [habs]
  have hq1 : 1075 = qexp 52 11 + 1 := by decide
  rw [hq1]
  rw [pow_succ (2 : ℚ) (qexp 52 11)]
  generalize (2 : ℚ) ^ qexp 52 11 = Q at *
  apply max_le
  · refine le_trans ?_ (mul_le_mul_of_nonneg_right (le_max_left _ _) hQ.le)
    apply le_of_eq; field_simp
  · refine le_trans ?_ (mul_le_mul_of_nonneg_right (le_max_right _ _) hQ.le)
    apply le_of_eq; field_simp

theorem mul_err_fin {a b : F64} (ha : a.isFinite = true) (hb : b.isFinite = true) (h : (a.mul b).isFinite = true) :
    |(a.mul b).val - a.val * b.val| ≤ ulpErr (a.val * b.val) := by
  have e : a.mul b = ofRound (a.sign != b.sign) (a.absVal * b.absVal) (2 ^ qexp 52 11) := by
    unfold FP.mul
    rw [isFinite_not_nan ha, isFinite_not_nan hb, isFinite_not_inf ha, isFinite_not_inf hb]
    rfl
  rw [e] at h ⊢
  refine ofRound_err_fin _ (qpow_pos _ _) ?_ h
  rw [val_sgn (by decide) a, val_sgn (by decide) b, sgn_bne]
  have := (qpow_posQ 52 11).ne'
  push_cast
  field_simp

/-- Dividing a finite number by one of magnitude at least 1 gives a finite number. -/
theorem div_err_ge_one {a b : F64} (ha : a.isFinite = true) (hb : b.isFinite = true) (h1 : 1 ≤ |b.val|) :
    (a.div b).isFinite = true ∧ |(a.div b).val - a.val / b.val| ≤ ulpErr (a.val / b.val) := by
  have h0 : b.val ≠ 0 := by intro h; rw [h] at h1; norm_num at h1
  have hb0 := absVal_ne_zero_iff.2 h0
  have e : a.div b = ofRound (a.sign != b.sign) (a.absVal * 2 ^ qexp 52 11) b.absVal := by
    unfold FP.div
    rw [isFinite_not_nan ha, isFinite_not_nan hb, isFinite_not_inf ha, isFinite_not_inf hb]
    simp only [hb0, Bool.or_self, Bool.false_eq_true, if_false]
  have hbN : 2 ^ qexp 52 11 ≤ b.absVal := by
    rw [abs_val (by decide), le_div_iff₀ (qpow_posQ 52 11), one_mul] at h1
    exact_mod_cast h1
  have hf : (a.div b).isFinite = true := by
    rw [e]
    have : roundPat 52 (a.absVal * 2 ^ qexp 52 11) b.absVal ≤ a.mag.val :=
      roundPat_le_of_le (Nat.pos_of_ne_zero hb0) (Nat.mul_le_mul_left _ hbN)
    have h2 : a.mag.val < infMag 52 11 := by simpa [isFinite] using ha
    have : (ofRound (a.sign != b.sign) (a.absVal * 2 ^ qexp 52 11) b.absVal : F64).mag.val < infMag 52 11 := by
      unfold ofRound; rw [ofPat_mag]; omega
    simpa [isFinite] using this
  refine ⟨hf, ?_⟩
  rw [e] at hf ⊢
  refine ofRound_err_fin _ (Nat.pos_of_ne_zero hb0) ?_ hf
  rw [val_sgn (by decide) a, val_sgn (by decide) b, sgn_bne]
  have := (qpow_posQ 52 11).ne'
  have hbQ : (b.absVal : ℚ) ≠ 0 := by exact_mod_cast hb0
  have h2 : sgn b.sign * sgn b.sign = 1 := by cases b.sign <;> norm_num [sgn]
  have h3 : sgn b.sign ≠ 0 := by cases b.sign <;> norm_num [sgn]
  push_cast
  rw [div_eq_iff (mul_ne_zero h3 (div_ne_zero hbQ this))]
  field_simp
  rw [pow_two, h2, mul_one]

/-- Rounding to `d` decimals when the product with `10^d` does not overflow. -/
theorem decimal_err_fin {x : F64} (hx : x.isFinite = true) {d : Nat} (hd : d ≤ 9) (hm : (x.mul (F64.lit (10 ^ d))).isFinite = true) :
    (roundF64 x d).isFinite = true ∧ |(roundF64 x d).val - x.val| ≤ 1 / (2 * 10 ^ d) + (|x.val| + 1) / 2 ^ 51 := by
  obtain ⟨hyv, hyf⟩ := lit10 hd
  obtain ⟨hY1, -⟩ := pow10_bounds hd
  unfold roundF64
  dsimp only
  generalize F64.lit (10 ^ d) = y at *
  have hYpos : (0 : ℚ) < 10 ^ d := by positivity
  generalize hYd : (10 : ℚ) ^ d = Y at *
  have hax : 0 ≤ |x.val| := abs_nonneg _
  have hxy : |x.val * y.val| = |x.val| * Y := by rw [abs_mul, hyv, abs_of_pos hYpos]
  have me := mul_err_fin hx hyf hm
  obtain ⟨rf, rv⟩ := (x.mul y).round_val (by decide) (by decide) hm
  have hr := roundHalfAway_err (x.mul y).val
  rw [← rv] at hr
  have me' := le_trans me (ulpErr_le' _)
  rw [hxy] at me'
  generalize (x.mul y).val = m at *
  generalize (x.mul y).round = r at *
  rw [hyv] at me'
  have hq : |r.val / Y - x.val| ≤ 1 / (2 * Y) + (1 / 2 ^ 54 + |x.val| / 2 ^ 53) := by
    have h1 : r.val / Y - x.val = ((r.val - m) + (m - x.val * Y)) / Y := by field_simp; ring
    rw [h1, abs_div, abs_of_pos hYpos, div_le_iff₀ hYpos]
    refine le_trans (abs_add_le _ _) ?_
    have : (1 / (2 * Y) + (1 / 2 ^ 54 + |x.val| / 2 ^ 53)) * Y = 1 / 2 + (Y / 2 ^ 54 + |x.val| * Y / 2 ^ 53) := by
      field_simp
    rw [this]
    have : (1 : ℚ) / 2 ^ 54 ≤ Y / 2 ^ 54 := by
      apply div_le_div_of_nonneg_right hY1; positivity
    linarith
  have hq2 : 1 / (2 * Y) ≤ 1 / 2 := by
    apply one_div_le_one_div_of_le (by norm_num); linarith
  have hq3 : |r.val / Y| ≤ 1 / 2 + 1 / 2 ^ 54 + |x.val| + |x.val| / 2 ^ 53 := by
    have : r.val / Y = (r.val / Y - x.val) + x.val := by ring
    rw [this]
    have := abs_add_le (r.val / Y - x.val) x.val
    linarith
  obtain ⟨df, de⟩ := div_err_ge_one rf hyf (by rw [hyv, abs_of_pos hYpos]; exact hY1)
  refine ⟨df, ?_⟩
  have de' := le_trans de (ulpErr_le' _)
  rw [hyv] at de'
  have : (r.div y).val - x.val = ((r.div y).val - r.val / Y) + (r.val / Y - x.val) := by ring
  rw [this]
  refine le_trans (abs_add_le _ _) ?_
  generalize |r.val / Y| = Z at *
  generalize |x.val| = X at *
  generalize 1 / (2 * Y) = W at *
  have e1 : (2 : ℚ) ^ 54 = 18014398509481984 := by norm_num
  have e2 : (2 : ℚ) ^ 53 = 9007199254740992 := by norm_num
  have e3 : (2 : ℚ) ^ 51 = 2251799813685248 := by norm_num
  rw [e1, e2] at *
  rw [e3]
  linarith

/-- **C32 for every finite `x` between the limits.** Either the product with `10^d` is a number, and then the result is within half a unit of the `d`-th decimal of `x`
up to a relative float error of `2^-51`; or it overflows, and then the result is the upper limit for a positive `x` and the lower limit for a negative one. -/
theorem C32_every (x min max : F64) (d : Nat) (hd : d ≤ 9) (hx : x.isFinite = true) (h1 : min.le x = true) (h2 : x.le max = true) :
    ((x.mul (F64.lit (10 ^ d))).isFinite = true ∧ |(roundAndLimit x min max d).val - x.val| ≤ 1 / (2 * 10 ^ d) + (|x.val| + 1) / 2 ^ 51) ∨
    ((x.mul (F64.lit (10 ^ d))).isInf = true ∧ roundAndLimit x min max d = if x.sign then min else max) := by
  cases hm : (x.mul (F64.lit (10 ^ d))).isFinite with
  | true =>
    obtain ⟨hf, he⟩ := decimal_err_fin hx hd hm
    refine .inl ⟨rfl, ?_⟩
    have v1 : min.val ≤ x.val := (val_le_iff (by decide)).2 (le_iff.1 h1).2.2
    have v2 : x.val ≤ max.val := (val_le_iff (by decide)).2 (le_iff.1 h2).2.2
    rw [roundAndLimit_eq]
    split_ifs with c1 c2
    · have v3 : (roundF64 x d).val < min.val := (val_lt_iff (by decide)).2 (lt_iff.1 c1).2.2
      refine le_trans ?_ he
      rw [abs_of_nonpos (by linarith), abs_of_nonpos (by linarith)]; linarith
    · have v3 : max.val < (roundF64 x d).val := (val_lt_iff (by decide)).2 (lt_iff.1 c2).2.2
      refine le_trans ?_ he
      rw [abs_of_nonneg (by linarith), abs_of_nonneg (by linarith)]; linarith
    · exact he
  | false =>
    obtain ⟨hyv, hyf⟩ := lit10 hd
    have hn := mul_not_nan (isFinite_not_nan hx) hyf (by rw [hyv]; positivity)
    have hi : (x.mul (F64.lit (10 ^ d))).isInf = true := by
      generalize x.mul (F64.lit (10 ^ d)) = z at *
      have a1 : ¬ z.mag.val < infMag 52 11 := by simpa [isFinite] using hm
      have a2 : z.mag.val ≤ infMag 52 11 := by simpa [isNaN] using hn
      have : z.mag.val = infMag 52 11 := by omega
      simpa [isInf] using this
    exact .inr ⟨hi, C32_overflow x min max d hd hx hi h1 h2⟩

/-- Both cases occur between 0 and `2^1023` at five decimals: `2^1000` keeps its value up to float error, `2^1020` does not. -/
example : ((F64.lit (2 ^ 1000)).mul (F64.lit (10 ^ 5))).isFinite = true ∧ FP.zero.le (F64.lit (2 ^ 1000)) = true ∧ (F64.lit (2 ^ 1000)).le (F64.lit (2 ^ 1023)) = true ∧
    ((F64.lit (2 ^ 1020)).mul (F64.lit (10 ^ 5))).isInf = true := by decide +kernel

end Atsc
