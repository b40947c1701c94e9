import Verif.Props.Rounding
/- Monotonicity of multiplication and division by a positive constant, of rounding, and of decimal rounding. -/
namespace Atsc
open FP

theorem mag_le_inf {x : F64} (h : x.isNaN = false) : x.mag.val ≤ infMag 52 11 := by
  simpa [isNaN] using h

theorem mag_ofRound_le {s s' : Bool} {p q p' q' : Nat} (hq : 0 < q) (hq' : 0 < q') (h : p * q' ≤ p' * q) :
    (ofRound s p q : F64).mag.val ≤ (ofRound s' p' q' : F64).mag.val := by
  have := roundPat_mono (mb := 52) hq hq' h
  simp only [ofRound, ofPat_mag]; omega

theorem mag_ofRound_le_inf (s : Bool) (p q : Nat) : (ofRound s p q : F64).mag.val ≤ infMag 52 11 := by
  simp only [ofRound, ofPat_mag]; omega

theorem absVal_le_of_mag {a b : F64} (h : a.mag.val ≤ b.mag.val) : a.absVal ≤ b.absVal := magVal_le_iff.2 h

theorem isInf_absVal {x : F64} (h : x.isInf = true) : x.absVal ≠ 0 := by
  have : x.mag.val = infMag 52 11 := by simpa [isInf] using h
  unfold FP.absVal
  rw [this, Ne, magVal_eq_zero]; decide

theorem inf_mag (s : Bool) : (FP.inf s : F64).mag.val = infMag 52 11 := by
  simp only [FP.inf, ofPat_mag]; omega

theorem mul_mag_mono {a b y : F64} (ha : a.isNaN = false) (hb : b.isNaN = false) (hy : y.isFinite = true) (hy0 : y.absVal ≠ 0)
    (h : a.mag.val ≤ b.mag.val) : (a.mul y).mag.val ≤ (b.mul y).mag.val := by
  have e : ∀ c : F64, c.isNaN = false → c.isInf = true → (c.mul y).mag.val = infMag 52 11 := by
    intro c hc hi
    have hc0 := isInf_absVal hi
    unfold FP.mul
    simp only [hc, isFinite_not_nan hy, hi, Bool.or_self, Bool.false_eq_true, if_false, Bool.true_or, if_true]
    simp only [hc0, hy0, decide_false, Bool.or_self, Bool.false_eq_true, if_false]
    exact inf_mag _
  have f : ∀ c : F64, c.isNaN = false → c.isInf = false →
      c.mul y = ofRound (c.sign != y.sign) (c.absVal * y.absVal) (2 ^ qexp 52 11) := by
    intro c hc hi
    unfold FP.mul
    rw [hc, isFinite_not_nan hy, hi, isFinite_not_inf hy]; rfl
  by_cases hbi : b.isInf = true
  · rw [e b hb hbi]
    by_cases hai : a.isInf = true
    · rw [e a ha hai]
    · rw [f a ha (by simpa using hai)]; exact mag_ofRound_le_inf _ _ _
  · have hai : a.isInf = false := by
      have h1 := mag_le_inf hb
      simp only [isInf, decide_eq_true_eq] at hbi
      simp only [isInf, decide_eq_false_iff_not]; omega
    rw [f a ha hai, f b hb (by simpa using hbi)]
    exact mag_ofRound_le (qpow_pos _ _) (qpow_pos _ _)
      (Nat.mul_le_mul_right _ (Nat.mul_le_mul_right _ (absVal_le_of_mag h)))

theorem div_mag_mono {a b y : F64} (ha : a.isNaN = false) (hb : b.isNaN = false) (hy : y.isFinite = true) (hy0 : y.absVal ≠ 0)
    (h : a.mag.val ≤ b.mag.val) : (a.div y).mag.val ≤ (b.div y).mag.val := by
  have e : ∀ c : F64, c.isNaN = false → c.isInf = true → (c.div y).mag.val = infMag 52 11 := by
    intro c hc hi
    unfold FP.div
    simp only [hc, isFinite_not_nan hy, hi, isFinite_not_inf hy, Bool.or_self, Bool.false_eq_true, if_false, if_true]
    exact inf_mag _
  have f : ∀ c : F64, c.isNaN = false → c.isInf = false →
      c.div y = ofRound (c.sign != y.sign) (c.absVal * 2 ^ qexp 52 11) y.absVal := by
    intro c hc hi
    unfold FP.div
    simp only [hc, isFinite_not_nan hy, hi, isFinite_not_inf hy, Bool.or_self, Bool.false_eq_true, if_false, hy0]
  by_cases hbi : b.isInf = true
  · rw [e b hb hbi]
    by_cases hai : a.isInf = true
    · rw [e a ha hai]
    · rw [f a ha (by simpa using hai)]; exact mag_ofRound_le_inf _ _ _
  · have hai : a.isInf = false := by
      have h1 := mag_le_inf hb
      simp only [isInf, decide_eq_true_eq] at hbi
      simp only [isInf, decide_eq_false_iff_not]; omega
    rw [f a ha hai, f b hb (by simpa using hbi)]
    exact mag_ofRound_le (Nat.pos_of_ne_zero hy0) (Nat.pos_of_ne_zero hy0)
      (Nat.mul_le_mul_right _ (Nat.mul_le_mul_right _ (absVal_le_of_mag h)))

theorem round_mag_mono {a b : F64} (hb : b.isNaN = false)
    (h : a.mag.val ≤ b.mag.val) : a.round.mag.val ≤ b.round.mag.val := by
  have hav := absVal_le_of_mag h
  unfold FP.round
  by_cases hbf : b.isFinite = true
  · have haf : a.isFinite = true := by
      simp only [isFinite, decide_eq_true_eq] at *; omega
    rw [if_pos haf, if_pos hbf]
    apply mag_ofRound_le Nat.one_pos Nat.one_pos
    exact Nat.mul_le_mul_right _ (Nat.mul_le_mul_right _ (Nat.div_le_div_right (by omega)))
  · rw [if_neg hbf]
    have hbm : b.mag.val = infMag 52 11 := by
      have := mag_le_inf hb
      simp only [isFinite, decide_eq_true_eq] at hbf; omega
    split_ifs
    · rw [hbm]; exact mag_ofRound_le_inf _ _ _
    · exact h

/-- Decimal rounding is monotone in the magnitude. -/
theorem roundF64_mag_mono {a b : F64} (ha : a.isNaN = false) (hb : b.isNaN = false) {d : Nat} (hd : d ≤ 9)
    (h : a.mag.val ≤ b.mag.val) : (roundF64 a d).mag.val ≤ (roundF64 b d).mag.val := by
  obtain ⟨hyv, hyf⟩ := lit10 hd
  have hy0 : (F64.lit (10 ^ d)).val ≠ 0 := by rw [hyv]; positivity
  have hya := absVal_ne_zero_iff.2 hy0
  unfold roundF64
  exact div_mag_mono (round_not_nan (mul_not_nan ha hyf hy0)) (round_not_nan (mul_not_nan hb hyf hy0)) hyf hya
    (round_mag_mono (mul_not_nan hb hyf hy0) (mul_mag_mono ha hb hyf hya h))

theorem mul_sign_pos {a y : F64} (ha : a.sign = false) (hy : y.sign = false) (hn : (a.mul y).isNaN = false) : (a.mul y).sign = false := by
  unfold FP.mul at *
  split_ifs at * with h1 h2 h3
  · rfl
  · rfl
  · rw [FP.inf, ofPat_sign, ha, hy]; rfl
  · rw [ofRound_sign, ha, hy]; rfl

theorem div_sign_pos {a y : F64} (ha : a.sign = false) (hy : y.sign = false) : (a.div y).sign = false := by
  unfold FP.div
  split_ifs with h1 h2 h3 h4 h5 h6
  · rfl
  · rfl
  · rw [FP.inf, ofPat_sign, ha, hy]; rfl
  · rw [ofPat_sign, ha, hy]; rfl
  · rfl
  · rw [FP.inf, ofPat_sign, ha, hy]; rfl
  · rw [ofRound_sign, ha, hy]; rfl

theorem round_sign (a : F64) : a.round.sign = a.sign := by
  unfold FP.round; split_ifs
  · exact ofRound_sign _ _ _
  · rfl

theorem lit_sign {n : Nat} : (F64.lit (n : Int)).sign = false := by
  unfold F64.lit FP.ofInt; rw [ofRound_sign]; simp

theorem roundF64_sign {a : F64} (ha : a.sign = false) (hn : a.isNaN = false) {d : Nat} (hd : d ≤ 9) : (roundF64 a d).sign = false := by
  obtain ⟨hyv, hyf⟩ := lit10 hd
  have hy0 : (F64.lit (10 ^ d)).val ≠ 0 := by rw [hyv]; positivity
  have hys : (F64.lit (10 ^ d)).sign = false := by
    have := @lit_sign (10 ^ d)
    push_cast at this; exact this
  unfold roundF64
  apply div_sign_pos _ hys
  rw [round_sign]; exact mul_sign_pos ha hys (mul_not_nan hn hyf hy0)

theorem val_nonneg_sign {x : F64} (h : x.sign = false) : 0 ≤ x.val := by
  rw [val_sgn (by decide), h]; simp only [sgn, Bool.false_eq_true, if_false, one_mul]
  exact div_nonneg (Nat.cast_nonneg _) (qpow_posQ 52 11).le

theorem scaled_pos_sign {x : F64} (h : x.sign = false) : x.scaled = x.absVal := by
  unfold FP.scaled; simp [h]

theorem lit41 : (F64.lit (2 ^ 41)).val = 2 ^ 41 ∧ (F64.lit (2 ^ 41)).isFinite = true := by
  have : ((2 : Int) ^ 41).natAbs ≤ 2 ^ 53 := by decide
  refine ⟨?_, (F64.lit_exact this).2⟩
  rw [lit_val' this]; norm_num

/-- The stopping test of the bounded searches: if the rounded error does not exceed the rounded bound, the error itself
exceeds the bound by at most 0.0006 (plus float error). -/
theorem stop_test {err m : F64} (hm : m.isFinite = true) (h0 : 0 ≤ m.val) (h1 : m.val ≤ 2 ^ 40)
    (he : err.isNaN = false) (hs : err.sign = false) (hstop : (roundF64 m 3).lt (roundF64 err 4) = false) :
    err.isFinite = true ∧ err.val ≤ m.val + 6 / 10000 + m.val / 2 ^ 49 := by
  have big40 : (2 : ℚ) ^ 40 = 1099511627776 := by norm_num
  obtain ⟨tf, te⟩ := decimal_err hm (by rw [abs_of_nonneg h0]; exact le_trans h1 (big_le (by norm_num))) (d := 3) (by norm_num)
  rw [abs_of_nonneg h0] at te
  have hns : ¬ (roundF64 m 3).scaled < (roundF64 err 4).scaled := by
    intro hc
    have : (roundF64 m 3).lt (roundF64 err 4) = true :=
      lt_iff.2 ⟨by rw [roundF64_nan m (by norm_num)]; exact isFinite_not_nan hm, by rw [roundF64_nan err (by norm_num)]; exact he, hc⟩
    rw [this] at hstop; exact Bool.noConfusion hstop
  have e51 : (2 : ℚ) ^ 51 = 2251799813685248 := by norm_num
  have e49 : (2 : ℚ) ^ 49 = 562949953421312 := by norm_num
  have e41 : (2 : ℚ) ^ 41 = 2199023255552 := by norm_num
  rw [e51] at te
  obtain ⟨l41, l41f⟩ := lit41
  by_cases hbig : (F64.lit (2 ^ 41)).mag.val ≤ err.mag.val
  · exfalso
    have hmono := roundF64_mag_mono (isFinite_not_nan l41f) he (d := 4) (by norm_num) hbig
    obtain ⟨bf, be⟩ := decimal_err l41f (by rw [l41, abs_of_nonneg (by positivity)]; exact big_le (by norm_num)) (d := 4) (by norm_num)
    rw [l41, abs_of_nonneg (by positivity : (0:ℚ) ≤ 2 ^ 41), e51, e41] at be
    have s1 : (roundF64 (F64.lit (2 ^ 41)) 4).sign = false := by
      apply roundF64_sign _ (isFinite_not_nan l41f) (by norm_num)
      have := @lit_sign (2 ^ 41)
      push_cast at this; exact this
    have s2 := roundF64_sign hs he (d := 4) (by norm_num)
    have hv : (roundF64 m 3).val < (roundF64 (F64.lit (2 ^ 41)) 4).val := by
      rw [big40] at h1
      rw [show (1 : ℚ) / (2 * 10 ^ 3) = 1 / 2000 by norm_num, abs_le] at te
      rw [show (1 : ℚ) / (2 * 10 ^ 4) = 1 / 20000 by norm_num, abs_le] at be
      obtain ⟨_, te2⟩ := te
      obtain ⟨be1, _⟩ := be
      clear hns hmono hbig l41 e41 e49 e51 big40
      revert te2 be1 h1 h0
      generalize (roundF64 m 3).val = A
      generalize (roundF64 (F64.lit (2 ^ 41)) 4).val = B
      generalize m.val = M
      intro h0 h1 be1 te2
      norm_num at be1
      linarith
    have := (val_lt_iff (by decide)).1 hv
    have := absVal_le_of_mag hmono
    rw [scaled_pos_sign s1] at *
    rw [scaled_pos_sign s2] at hns
    omega
  · have hf : err.isFinite = true := by
      have : (F64.lit (2 ^ 41)).mag.val < infMag 52 11 := by simpa [isFinite] using l41f
      simp only [isFinite, decide_eq_true_eq]; omega
    refine ⟨hf, ?_⟩
    have hev := val_nonneg_sign hs
    have hle : err.val ≤ 2 ^ 41 := by
      rw [← l41, val_le_iff (by decide), scaled_pos_sign hs, scaled_pos_sign (by
        have := @lit_sign (2 ^ 41)
        push_cast at this; exact this)]
      exact Int.ofNat_le.2 (absVal_le_of_mag (by omega))
    obtain ⟨_, ee⟩ := decimal_err hf (by rw [abs_of_nonneg hev]; exact le_trans hle (big_le (by norm_num))) (d := 4) (by norm_num)
    rw [abs_of_nonneg hev, e51] at ee
    have hv : (roundF64 err 4).val ≤ (roundF64 m 3).val := by
      rw [val_le_iff (by decide)]; omega
    rw [e41] at hle
    rw [big40] at h1
    rw [e49]
    rw [show (1 : ℚ) / (2 * 10 ^ 3) = 1 / 2000 by norm_num, abs_le] at te
    rw [show (1 : ℚ) / (2 * 10 ^ 4) = 1 / 20000 by norm_num, abs_le] at ee
    linarith [te.2, ee.1]

/-- The searches are entered: the initial error `bound + 1` exceeds the bound. -/
theorem search_entered {m : F64} (hm : m.isFinite = true) (h1 : |m.val| ≤ 2 ^ 40) :
    (roundF64 m 3).lt (roundF64 (m.add (F64.lit 1)) 4) = true := by
  have big40 : (2 : ℚ) ^ 40 = 1099511627776 := by norm_num
  have e51 : (2 : ℚ) ^ 51 = 2251799813685248 := by norm_num
  have e54 : (2 : ℚ) ^ 54 = 18014398509481984 := by norm_num
  have e53 : (2 : ℚ) ^ 53 = 9007199254740992 := by norm_num
  obtain ⟨tf, te⟩ := decimal_err hm (le_trans h1 (big_le (by norm_num))) (d := 3) (by norm_num)
  have l1 : (F64.lit 1).val = 1 := by rw [lit_val' (by decide)]; norm_num
  have l1f : (F64.lit 1).isFinite = true := (F64.lit_exact (by decide)).2
  have hab := abs_add_le m.val 1
  rw [abs_one] at hab
  obtain ⟨af, ae⟩ := add_err hm l1f (by
    rw [l1]; refine le_trans hab (le_trans ?_ (big_le (by norm_num : 41 ≤ 1023))); linarith [show (2:ℚ)^41 = 2 * 2^40 by norm_num, big40])
  rw [l1] at ae
  have ae' := le_trans ae (ulpErr_le' _)
  rw [e54, e53] at ae'
  rw [big40] at h1
  rw [e51] at te
  have hb2 : |(m.add (F64.lit 1)).val| ≤ 1099511627776 + 2 := by
    have : (m.add (F64.lit 1)).val = ((m.add (F64.lit 1)).val - (m.val + 1)) + (m.val + 1) := by ring
    rw [this]
    have := abs_add_le ((m.add (F64.lit 1)).val - (m.val + 1)) (m.val + 1)
    linarith
  obtain ⟨bf, be⟩ := decimal_err af (by refine le_trans hb2 (le_trans ?_ (big_le (by norm_num : 41 ≤ 900))); norm_num) (d := 4) (by norm_num)
  rw [e51] at be
  rw [lt_iff]
  refine ⟨isFinite_not_nan tf, isFinite_not_nan bf, (val_lt_iff (by decide)).1 ?_⟩
  have hcab := abs_le.1 (le_trans ae' (le_refl _))
  generalize hq : |m.val + 1| = Q at *
  generalize hp : |m.val| = P at *
  generalize hr : |(m.add (F64.lit 1)).val| = R at *
  rw [show (1 : ℚ) / (2 * 10 ^ 3) = 1 / 2000 by norm_num, abs_le] at te
  rw [show (1 : ℚ) / (2 * 10 ^ 4) = 1 / 20000 by norm_num, abs_le] at be
  linarith [te.2, be.1, hcab.1]

end Atsc
