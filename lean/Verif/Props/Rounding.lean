import Verif.Props.Utils
import Verif.Lemmas.FloatErr
import Mathlib.Tactic.IntervalCases
/- C32: decimal rounding with limits. -/
namespace Atsc
open FP

theorem roundHalfAway_err (q : ℚ) : |(roundHalfAway q : ℚ) - q| ≤ 1 / 2 := by
  unfold roundHalfAway
  rw [abs_le]
  split_ifs with h
  · have h1 := Int.floor_le (1 / 2 - q)
    have h2 := Int.lt_floor_add_one (1 / 2 - q)
    push_cast; constructor <;> linarith
  · have h1 := Int.floor_le (q + 1 / 2)
    have h2 := Int.lt_floor_add_one (q + 1 / 2)
    constructor <;> linarith

theorem roundHalfAway_unique {q : ℚ} {k : ℤ} (h : |q - k| < 1 / 2) : roundHalfAway q = k := by
  rw [abs_lt] at h
  unfold roundHalfAway
  split_ifs with h0
  · have : ⌊1 / 2 - q⌋ = -k := by rw [Int.floor_eq_iff]; push_cast; constructor <;> linarith
    rw [this]; ring
  · rw [Int.floor_eq_iff]; constructor <;> linarith

theorem ulpErr_le' (v : ℚ) : ulpErr v ≤ 1 / 2 ^ 54 + |v| / 2 ^ 53 := by
  refine le_trans (ulpErr_le v) ?_
  have : (1 : ℚ) / 2 ^ 1075 ≤ 1 / 2 ^ 54 := by
    apply one_div_le_one_div_of_le (by positivity)
    exact pow_le_pow_right₀ (by norm_num) (by norm_num)
  linarith

theorem lit10 {d : Nat} (hd : d ≤ 9) : (F64.lit (10 ^ d)).val = 10 ^ d ∧ (F64.lit (10 ^ d)).isFinite = true := by
  have : ((10 : Int) ^ d).natAbs ≤ 2 ^ 53 := by interval_cases d <;> decide
  refine ⟨?_, (F64.lit_exact this).2⟩
  rw [lit_val' this]; push_cast; rfl

theorem pow10_bounds {d : Nat} (hd : d ≤ 9) : (1 : ℚ) ≤ 10 ^ d ∧ (10 : ℚ) ^ d ≤ 2 ^ 30 := by
  interval_cases d <;> norm_num

theorem big_le {a b : Nat} (h : a ≤ b) : (2 : ℚ) ^ a ≤ 2 ^ b := pow_le_pow_right₀ (by norm_num) h

/-- Rounding to `d` decimals: the result is finite and within half a unit of the last decimal, plus float error. -/
theorem decimal_err {x : F64} (hx : x.isFinite = true) (hb : |x.val| ≤ 2 ^ 900) {d : Nat} (hd : d ≤ 9) :
    (roundF64 x d).isFinite = true ∧ |(roundF64 x d).val - x.val| ≤ 1 / (2 * 10 ^ d) + (|x.val| + 1) / 2 ^ 51 := by
  obtain ⟨hyv, hyf⟩ := lit10 hd
  obtain ⟨hY1, hY2⟩ := pow10_bounds hd
  unfold roundF64
  set y := F64.lit (10 ^ d)
  have hYpos : (0 : ℚ) < 10 ^ d := by positivity
  generalize hYd : (10 : ℚ) ^ d = Y at *
  have hax : 0 ≤ |x.val| := abs_nonneg _
  -- the product
  have hxy : |x.val * y.val| = |x.val| * Y := by rw [abs_mul, hyv, abs_of_pos hYpos]
  have hp : |x.val| * Y ≤ 2 ^ 930 := by
    rw [show (2 : ℚ) ^ 930 = 2 ^ 900 * 2 ^ 30 by rw [← pow_add]]
    exact mul_le_mul hb hY2 hYpos.le (by positivity)
  obtain ⟨mf, me⟩ := mul_err hx hyf (by rw [hxy]; exact le_trans hp (big_le (by norm_num)))
  obtain ⟨rf, rv⟩ := (x.mul y).round_val (by decide) (by decide) mf
  have hr := roundHalfAway_err (x.mul y).val
  rw [← rv] at hr
  have me' := le_trans me (ulpErr_le' _)
  rw [hxy] at me'
  generalize (x.mul y).val = m at *
  set r := (x.mul y).round
  rw [hyv] at me'
  -- the quotient before rounding
  have hq : |r.val / Y - x.val| ≤ 1 / (2 * Y) + (1 / 2 ^ 54 + |x.val| / 2 ^ 53) := by
    have h1 : r.val / Y - x.val = ((r.val - m) + (m - x.val * Y)) / Y := by field_simp; ring
    rw [h1, abs_div, abs_of_pos hYpos, div_le_iff₀ hYpos]
    refine le_trans (abs_add_le _ _) ?_
    have : (1 / (2 * Y) + (1 / 2 ^ 54 + |x.val| / 2 ^ 53)) * Y = 1 / 2 + (Y / 2 ^ 54 + |x.val| * Y / 2 ^ 53) := by
      field_simp
    rw [this]
    have : (1 : ℚ) / 2 ^ 54 ≤ Y / 2 ^ 54 := by
      apply div_le_div_of_nonneg_right hY1; positivity
    linarith
  have hq2 : 1 / (2 * Y) ≤ 1 / 2 := by
    apply one_div_le_one_div_of_le (by norm_num); linarith
  have hq3 : |r.val / Y| ≤ 1 / 2 + 1 / 2 ^ 54 + |x.val| + |x.val| / 2 ^ 53 := by
    have : r.val / Y = (r.val / Y - x.val) + x.val := by ring
    rw [this]
    have := abs_add_le (r.val / Y - x.val) x.val
    linarith
  have hy0 : y.val ≠ 0 := by rw [hyv]; exact hYpos.ne'
  have hlim : |r.val / y.val| ≤ 2 ^ 1023 := by
    rw [hyv]
    refine le_trans hq3 ?_
    have : (2 : ℚ) ^ 900 * 2 ^ 2 ≤ 2 ^ 1023 := by rw [← pow_add]; exact big_le (by norm_num)
    have h1 : (1 : ℚ) ≤ 2 ^ 900 := one_le_pow₀ (by norm_num)
    have h2 : |x.val| / 2 ^ 53 ≤ |x.val| := div_le_self hax (one_le_pow₀ (by norm_num))
    have h3 : (1 : ℚ) / 2 ^ 54 ≤ 1 / 2 := by norm_num
    generalize (2 : ℚ) ^ 900 = B at *
    generalize (2 : ℚ) ^ 1023 = C at *
    linarith
  obtain ⟨df, de⟩ := div_err rf hyf hy0 hlim
  refine ⟨df, ?_⟩
  have de' := le_trans de (ulpErr_le' _)
  rw [hyv] at de'
  have : (r.div y).val - x.val = ((r.div y).val - r.val / Y) + (r.val / Y - x.val) := by ring
  rw [this]
  refine le_trans (abs_add_le _ _) ?_
  generalize |r.val / Y| = Z at *
  generalize |x.val| = X at *
  generalize 1 / (2 * Y) = W at *
  have e1 : (2 : ℚ) ^ 54 = 18014398509481984 := by norm_num
  have e2 : (2 : ℚ) ^ 53 = 9007199254740992 := by norm_num
  have e3 : (2 : ℚ) ^ 51 = 2251799813685248 := by norm_num
  rw [e1, e2] at *
  rw [e3]
  linarith

theorem mul_not_nan {a b : F64} (ha : a.isNaN = false) (hb : b.isFinite = true) (h0 : b.val ≠ 0) :
    (a.mul b).isNaN = false := by
  have hb0 := absVal_ne_zero_iff.2 h0
  unfold FP.mul
  rw [ha, isFinite_not_nan hb, isFinite_not_inf hb]
  simp only [Bool.or_self, Bool.or_false, Bool.false_eq_true, if_false]
  split_ifs with h1 h2
  · have : a.absVal ≠ 0 := by
      have : a.mag.val = infMag 52 11 := by simpa [isInf] using h1
      unfold FP.absVal
      rw [this, Ne, magVal_eq_zero]; decide
    simp [this, hb0] at h2
  · cases (a.sign != b.sign) <;> decide
  · exact ofRound_isNaN _ _ _

theorem div_not_nan {a b : F64} (ha : a.isNaN = false) (hb : b.isFinite = true) (h0 : b.val ≠ 0) :
    (a.div b).isNaN = false := by
  have hb0 := absVal_ne_zero_iff.2 h0
  unfold FP.div
  rw [ha, isFinite_not_nan hb, isFinite_not_inf hb]
  simp only [Bool.or_self, Bool.false_eq_true, if_false, hb0]
  split_ifs with h1
  · cases (a.sign != b.sign) <;> decide
  · exact ofRound_isNaN _ _ _

theorem round_not_nan {a : F64} (ha : a.isNaN = false) : a.round.isNaN = false := by
  unfold FP.round
  split_ifs
  · exact ofRound_isNaN _ _ _
  · exact ha

theorem roundF64_nan (x : F64) {d : Nat} (hd : d ≤ 9) : (roundF64 x d).isNaN = x.isNaN := by
  obtain ⟨hyv, hyf⟩ := lit10 hd
  have hy0 : (F64.lit (10 ^ d)).val ≠ 0 := by rw [hyv]; positivity
  unfold roundF64
  cases h : x.isNaN with
  | false => exact div_not_nan (round_not_nan (mul_not_nan h hyf hy0)) hyf hy0
  | true =>
    have h1 : (x.mul (F64.lit (10 ^ d))) = FP.nan := by unfold FP.mul; simp [h]
    have h2 : (FP.nan : F64).round = FP.nan := by decide +kernel
    simp only [h1, h2]
    exact nan_div_left nan_isNaN

theorem roundAndLimit_eq (x min max : F64) (d : Nat) : roundAndLimit x min max d =
    if (roundF64 x d).lt min then min else if max.lt (roundF64 x d) then max else roundF64 x d := rfl

theorem le_of_not_lt {a b : F64} (ha : a.isNaN = false) (hb : b.isNaN = false) (h : ¬ a.lt b = true) : b.le a = true := by
  rw [le_iff]; refine ⟨hb, ha, ?_⟩
  rw [lt_iff] at h
  by_contra hc
  exact h ⟨ha, hb, by omega⟩

/-- C32: for every `x` that is not NaN and limits `min ≤ max`, the result lies between the limits; a NaN stays NaN. -/
theorem C32_clamped (x min max : F64) (d : Nat) (hd : d ≤ 9) (h : min.le max = true) :
    (x.isNaN = false → min.le (roundAndLimit x min max d) = true ∧ (roundAndLimit x min max d).le max = true) ∧
    (x.isNaN = true → (roundAndLimit x min max d).isNaN = true) := by
  have hn := roundF64_nan x hd
  rw [roundAndLimit_eq]
  obtain ⟨n1, n2, h3⟩ := le_iff.1 h
  constructor
  · intro hx
    rw [hx] at hn
    split_ifs with h1 h2
    · exact ⟨by rw [le_iff]; exact ⟨n1, n1, le_refl _⟩, h⟩
    · exact ⟨h, by rw [le_iff]; exact ⟨n2, n2, le_refl _⟩⟩
    · exact ⟨le_of_not_lt hn n1 h1, le_of_not_lt n2 hn h2⟩
  · intro hx
    rw [hx] at hn
    have e1 : (roundF64 x d).lt min = false := by unfold FP.lt; simp [hn]
    have e2 : max.lt (roundF64 x d) = false := by unfold FP.lt; simp [hn]
    simp [e1, e2, hn]

/-- C32: for a finite `x` between the limits the result is within half a unit of the `d`-th decimal of `x`, up to a
relative float error of `2^-51`. -/
theorem C32_accuracy (x min max : F64) (d : Nat) (hd : d ≤ 9) (hx : x.isFinite = true) (hb : |x.val| ≤ 2 ^ 900)
    (h1 : min.le x = true) (h2 : x.le max = true) :
    |(roundAndLimit x min max d).val - x.val| ≤ 1 / (2 * 10 ^ d) + (|x.val| + 1) / 2 ^ 51 := by
  obtain ⟨hf, he⟩ := decimal_err hx hb hd
  have v1 : min.val ≤ x.val := (val_le_iff (by decide)).2 (le_iff.1 h1).2.2
  have v2 : x.val ≤ max.val := (val_le_iff (by decide)).2 (le_iff.1 h2).2.2
  rw [roundAndLimit_eq]
  split_ifs with c1 c2
  · have v3 : (roundF64 x d).val < min.val := (val_lt_iff (by decide)).2 (lt_iff.1 c1).2.2
    refine le_trans ?_ he
    rw [abs_of_nonpos (by linarith), abs_of_nonpos (by linarith)]; linarith
  · have v3 : max.val < (roundF64 x d).val := (val_lt_iff (by decide)).2 (lt_iff.1 c2).2.2
    refine le_trans ?_ he
    rw [abs_of_nonneg (by linarith), abs_of_nonneg (by linarith)]; linarith
  · exact he

theorem div_congr_val {a a' b : F64} (ha : a.isFinite = true) (ha' : a'.isFinite = true) (hv : a.val = a'.val) :
    (a.div b).val = (a'.div b).val ∧ (a.div b).isFinite = (a'.div b).isFinite := by
  have hs : a.scaled = a'.scaled := (val_eq_iff (by decide)).1 hv
  rcases (feq_iff_eq_or_zero (isFinite_not_nan ha) (isFinite_not_nan ha')).1
    (feq_iff.2 ⟨isFinite_not_nan ha, isFinite_not_nan ha', hs⟩) with rfl | ⟨h1, h2⟩
  · exact ⟨rfl, rfl⟩
  · have key : ∀ c : F64, c.isFinite = true → c.absVal = 0 →
        (c.div b = FP.nan ∧ (b.isNaN = true ∨ b.absVal = 0)) ∨ (¬ (b.isNaN = true ∨ b.absVal = 0) ∧ ∃ s, c.div b = ofPat s 0) := by
      intro c hc hc0
      unfold FP.div
      rw [isFinite_not_nan hc, isFinite_not_inf hc, hc0]
      by_cases hb : b.isNaN = true
      · left; simp [hb]
      · rw [Bool.not_eq_true] at hb
        simp only [hb, Bool.or_self, Bool.false_eq_true, if_false, Nat.zero_mul]
        by_cases hi : b.isInf = true
        · right
          have : b.absVal ≠ 0 := by
            have : b.mag.val = infMag 52 11 := by simpa [isInf] using hi
            unfold FP.absVal
            rw [this, Ne, magVal_eq_zero]; decide
          simp only [hi, if_true, this, or_self, not_false_eq_true, true_and]
          exact ⟨_, rfl⟩
        · by_cases h0 : b.absVal = 0
          · left; simp [hi, h0]
          · right
            simp only [hi, h0, Bool.false_eq_true, if_false, or_self, not_false_eq_true, true_and]
            exact ⟨c.sign != b.sign, by unfold ofRound; rw [roundPat_zero (by omega)]⟩
    have vz : ∀ s : Bool, (ofPat s 0 : F64).val = 0 ∧ (ofPat s 0 : F64).isFinite = true := by
      intro s
      refine ⟨?_, by cases s <;> decide⟩
      rw [val_eq (by decide)]
      cases s <;> simp [FP.scaled, FP.absVal, ofPat_mag, magVal, magShift]
    rcases key a ha h1 with ⟨e1, f1⟩ | ⟨f1, s1, e1⟩ <;> rcases key a' ha' h2 with ⟨e2, f2⟩ | ⟨f2, s2, e2⟩
    · rw [e1, e2]; exact ⟨rfl, rfl⟩
    · exact absurd f1 f2
    · exact absurd f2 f1
    · rw [e1, e2, (vz s1).1, (vz s2).1, (vz s1).2, (vz s2).2]; exact ⟨rfl, rfl⟩

/-- Rounding to `d` decimals returns the value unchanged when it is the double nearest to a decimal with `d` digits. -/
theorem decimal_fixed {k : ℤ} {d : Nat} (hd : d ≤ 9) (hk : |k| ≤ 2 ^ 50) :
    (roundF64 ((F64.lit k).div (F64.lit (10 ^ d))) d).isFinite = true ∧
    (roundF64 ((F64.lit k).div (F64.lit (10 ^ d))) d).val = ((F64.lit k).div (F64.lit (10 ^ d))).val := by
  obtain ⟨hyv, hyf⟩ := lit10 hd
  obtain ⟨hY1, hY2⟩ := pow10_bounds hd
  have hkn : k.natAbs ≤ 2 ^ 53 := by
    have : (k.natAbs : ℤ) ≤ 2 ^ 50 := by rw [Int.natCast_natAbs]; exact hk
    omega
  have hkv := lit_val' hkn
  have hkf := (F64.lit_exact hkn).2
  have hkQ : |(k : ℚ)| ≤ 2 ^ 50 := by exact_mod_cast hk
  set y := F64.lit (10 ^ d) with hydef
  set x := (F64.lit k).div y with hxdef
  have hYpos : (0 : ℚ) < 10 ^ d := by positivity
  have hy0 : y.val ≠ 0 := by rw [hyv]; exact hYpos.ne'
  generalize hYd : (10 : ℚ) ^ d = Y at *
  have hkY : |(k : ℚ) / Y| * Y = |(k : ℚ)| := by rw [abs_div, abs_of_pos hYpos]; field_simp
  have hkY' : |(k : ℚ) / Y| ≤ 2 ^ 50 := by
    have : |(k : ℚ) / Y| ≤ |(k : ℚ) / Y| * Y := le_mul_of_one_le_right (abs_nonneg _) hY1
    linarith
  obtain ⟨xf, xe⟩ := div_err hkf hyf hy0 (by rw [hkv, hyv]; exact le_trans hkY' (big_le (by norm_num)))
  rw [hkv, hyv] at xe
  have xe' := le_trans xe (ulpErr_le' _)
  rw [← hxdef] at xf xe'
  -- x * Y is close to k
  have hxY : |x.val * Y - k| ≤ Y / 2 ^ 54 + |(k : ℚ)| / 2 ^ 53 := by
    have h1 : x.val * Y - k = (x.val - k / Y) * Y := by field_simp
    rw [h1, abs_mul, abs_of_pos hYpos]
    calc _ ≤ (1 / 2 ^ 54 + |(k : ℚ) / Y| / 2 ^ 53) * Y := mul_le_mul_of_nonneg_right xe' hYpos.le
      _ = Y / 2 ^ 54 + (|(k : ℚ) / Y| * Y) / 2 ^ 53 := by ring
      _ = _ := by rw [hkY]
  have e54 : (2 : ℚ) ^ 54 = 18014398509481984 := by norm_num
  have e53 : (2 : ℚ) ^ 53 = 9007199254740992 := by norm_num
  have e50 : (2 : ℚ) ^ 50 = 1125899906842624 := by norm_num
  have e30 : (2 : ℚ) ^ 30 = 1073741824 := by norm_num
  rw [e54, e53] at hxY xe'
  rw [e50] at hkQ
  rw [e30] at hY2
  have hak : 0 ≤ |(k : ℚ)| := abs_nonneg _
  have hxYa : |x.val * Y| ≤ 1125899906842624 + 1 := by
    have : x.val * Y = (x.val * Y - k) + k := by ring
    rw [this]
    have := abs_add_le (x.val * Y - k) (k : ℚ)
    linarith
  obtain ⟨mf, me⟩ := mul_err xf hyf (by
    rw [hyv]; refine le_trans hxYa (le_trans ?_ (big_le (by norm_num : 51 ≤ 1023))); norm_num)
  have me' := le_trans me (ulpErr_le' _)
  rw [hyv, e54, e53] at me'
  have hm : |(x.mul y).val - k| < 1 / 2 := by
    have : (x.mul y).val - k = ((x.mul y).val - x.val * Y) + (x.val * Y - k) := by ring
    rw [this]
    have := abs_add_le ((x.mul y).val - x.val * Y) (x.val * Y - k)
    linarith
  obtain ⟨rf, rv⟩ := (x.mul y).round_val (by decide) (by decide) mf
  rw [roundHalfAway_unique hm, ← hkv] at rv
  have := div_congr_val (b := y) rf hkf rv
  rw [← hxdef, xf] at this
  exact ⟨this.2, this.1⟩

/-- C32: a decimal number with at most `d` digits after the point (|k| ≤ 2^50 units of the last digit) between the limits
is returned unchanged. -/
theorem C32_decimals_unchanged (k : ℤ) (d : Nat) (hd : d ≤ 9) (hk : |k| ≤ 2 ^ 50) (min max : F64)
    (h1 : min.le ((F64.lit k).div (F64.lit (10 ^ d))) = true) (h2 : ((F64.lit k).div (F64.lit (10 ^ d))).le max = true) :
    (roundAndLimit ((F64.lit k).div (F64.lit (10 ^ d))) min max d).val = ((F64.lit k).div (F64.lit (10 ^ d))).val := by
  obtain ⟨hf, hv⟩ := decimal_fixed hd hk
  rw [roundAndLimit_eq]
  have hs := (val_eq_iff (by decide)).1 hv
  have c1 : ¬ (roundF64 ((F64.lit k).div (F64.lit (10 ^ d))) d).lt min = true := by
    intro c; have := (lt_iff.1 c).2.2; have := (le_iff.1 h1).2.2; omega
  have c2 : ¬ max.lt (roundF64 ((F64.lit k).div (F64.lit (10 ^ d))) d) = true := by
    intro c; have := (lt_iff.1 c).2.2; have := (le_iff.1 h2).2.2; omega
  rw [if_neg c1, if_neg c2]; exact hv

-- 3.14159265 to 4 decimals inside [3, 4] is 3.1416; outside [3.2, 4] it is clamped to 3.2
example : roundAndLimit ((F64.lit 314159265).div (F64.lit 100000000)) (F64.lit 3) (F64.lit 4) 4
    = (F64.lit 31416).div (F64.lit 10000) := by decide +kernel
example : roundAndLimit ((F64.lit 314159265).div (F64.lit 100000000)) ((F64.lit 32).div (F64.lit 10)) (F64.lit 4) 4
    = (F64.lit 32).div (F64.lit 10) := by decide +kernel
example : (F64.lit 3).le (F64.lit 4) = true ∧ (F64.lit 3).isFinite = true := by decide +kernel

end Atsc
