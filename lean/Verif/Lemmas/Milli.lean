import Verif.Lemmas.FloatMono
import Verif.Model.Fft
/- The stopping test of the FFT search: errors are compared after `(x * 1000.0) as i32`. -/
namespace Atsc
open FP

theorem truncInt_near (x : F64) : x.val - 1 < x.truncInt ∧ (x.truncInt : ℚ) < x.val + 1 := by
  have hq : (0 : ℚ) < 2 ^ qexp 52 11 := qpow_posQ 52 11
  have hqn : 0 < 2 ^ qexp 52 11 := qpow_pos 52 11
  rw [val_sgn (by decide)]
  unfold truncInt
  generalize x.absVal = A
  have h1 : ((A / 2 ^ qexp 52 11 : Nat) : ℚ) ≤ (A : ℚ) / 2 ^ qexp 52 11 := by
    rw [le_div_iff₀ hq]
    have := Nat.div_mul_le_self A (2 ^ qexp 52 11)
    calc ((A / 2 ^ qexp 52 11 : Nat) : ℚ) * 2 ^ qexp 52 11 = ((A / 2 ^ qexp 52 11 * 2 ^ qexp 52 11 : Nat) : ℚ) := by
          rw [Nat.cast_mul, Nat.cast_pow]; rfl
      _ ≤ (A : ℚ) := Nat.cast_le.2 this
  have h2 : (A : ℚ) / 2 ^ qexp 52 11 < ((A / 2 ^ qexp 52 11 : Nat) : ℚ) + 1 := by
    rw [div_lt_iff₀ hq]
    have := Nat.lt_mul_div_succ A hqn
    rw [Nat.mul_comm] at this
    calc (A : ℚ) < ((((A / 2 ^ qexp 52 11) + 1) * 2 ^ qexp 52 11 : Nat) : ℚ) := Nat.cast_lt.2 this
      _ = (((A / 2 ^ qexp 52 11 : Nat) : ℚ) + 1) * 2 ^ qexp 52 11 := by rw [Nat.cast_mul, Nat.cast_pow, Nat.cast_add]; rfl
  generalize ((A / 2 ^ qexp 52 11 : Nat)) = T at *
  generalize (A : ℚ) / 2 ^ qexp 52 11 = V at *
  cases x.sign
  · simp only [sgn, Bool.false_eq_true, if_false, one_mul]
    push_cast
    exact ⟨by linarith, by linarith⟩
  · simp only [sgn, if_true]
    push_cast
    exact ⟨by linarith, by linarith⟩

theorem truncInt_le_max (x : F64) : (x.truncInt : ℚ) ≤ max 0 x.val := by
  have hq : (0 : ℚ) < 2 ^ qexp 52 11 := qpow_posQ 52 11
  rw [val_sgn (by decide)]
  unfold truncInt
  generalize x.absVal = A
  have h1 : ((A / 2 ^ qexp 52 11 : Nat) : ℚ) ≤ (A : ℚ) / 2 ^ qexp 52 11 := by
    rw [le_div_iff₀ hq]
    have := Nat.div_mul_le_self A (2 ^ qexp 52 11)
    calc ((A / 2 ^ qexp 52 11 : Nat) : ℚ) * 2 ^ qexp 52 11 = ((A / 2 ^ qexp 52 11 * 2 ^ qexp 52 11 : Nat) : ℚ) := by
          rw [Nat.cast_mul, Nat.cast_pow]; rfl
      _ ≤ (A : ℚ) := Nat.cast_le.2 this
  generalize ((A / 2 ^ qexp 52 11 : Nat)) = T at *
  generalize (A : ℚ) / 2 ^ qexp 52 11 = V at *
  cases x.sign
  · simp only [sgn, Bool.false_eq_true, if_false, one_mul]
    exact le_max_of_le_right (by exact_mod_cast h1)
  · simp only [if_true]
    apply le_max_of_le_left
    push_cast
    have : (0 : ℚ) ≤ T := Nat.cast_nonneg _
    linarith

theorem milli_eq {x : F64} (h : (x.mul (F64.lit 1000)).isNaN = false) :
    milli x = max (-2 ^ 31) (min (2 ^ 31 - 1) (x.mul (F64.lit 1000)).truncInt) := by
  unfold milli F64.toI32 FP.toInt; rw [h]; rfl

theorem lit1000 : (F64.lit 1000).val = 1000 ∧ (F64.lit 1000).isFinite = true := by
  refine ⟨?_, (F64.lit_exact (by decide)).2⟩
  rw [lit_val' (by decide)]; norm_num

theorem mul1000_err {x : F64} (hx : x.isFinite = true) (hb : |x.val| ≤ 2097153) :
    (x.mul (F64.lit 1000)).isFinite = true ∧ |(x.mul (F64.lit 1000)).val - x.val * 1000| ≤ 1 / 1000000 := by
  obtain ⟨l1, l2⟩ := lit1000
  have hm : |x.val * 1000| ≤ 2097153000 := by rw [abs_mul, abs_of_nonneg (by norm_num : (0:ℚ) ≤ 1000)]; linarith
  obtain ⟨h1, h2⟩ := mul_err hx l2 (by
    rw [l1]; exact le_trans hm (le_trans (by norm_num) (big_le (show 31 ≤ 1023 by norm_num))))
  rw [l1] at h2
  refine ⟨h1, le_trans h2 (le_trans (ulpErr_le' _) ?_)⟩
  rw [show (2 : ℚ) ^ 54 = 18014398509481984 by norm_num, show (2 : ℚ) ^ 53 = 9007199254740992 by norm_num]
  linarith

/-- The FFT search is entered: the initial error `bound + 1` exceeds the bound (bounds up to a million). -/
theorem fft_entered {e : F64} (he : e.isFinite = true) (hb : |e.val| ≤ 1000000) :
    milli e < milli (e.add (F64.lit 1)) := by
  have l1 : (F64.lit 1).val = 1 := by rw [lit_val' (by decide)]; norm_num
  have l1f : (F64.lit 1).isFinite = true := (F64.lit_exact (by decide)).2
  have hab := abs_add_le e.val 1
  rw [abs_one] at hab
  obtain ⟨af, ae⟩ := add_err he l1f (by
    rw [l1]; exact le_trans hab (le_trans (by linarith : |e.val| + 1 ≤ 2 ^ 20) (big_le (show 20 ≤ 1023 by norm_num))))
  rw [l1] at ae
  have ae' := le_trans ae (ulpErr_le' _)
  rw [show (2 : ℚ) ^ 54 = 18014398509481984 by norm_num, show (2 : ℚ) ^ 53 = 9007199254740992 by norm_num] at ae'
  have ae2 : |(e.add (F64.lit 1)).val - (e.val + 1)| ≤ 1 / 1000000 := by linarith
  obtain ⟨p1, p2⟩ := mul1000_err he (by linarith)
  have hb1 : |(e.add (F64.lit 1)).val| ≤ 1000002 := by
    rw [abs_le] at ae2 hb ⊢
    constructor <;> linarith [ae2.1, ae2.2, hb.1, hb.2]
  obtain ⟨q1, q2⟩ := mul1000_err af (by linarith)
  rw [milli_eq (isFinite_not_nan p1), milli_eq (isFinite_not_nan q1)]
  have t1 := truncInt_near (e.mul (F64.lit 1000))
  have t2 := truncInt_near ((e.add (F64.lit 1)).mul (F64.lit 1000))
  rw [abs_le] at p2 q2 ae2 hb
  have k1 : ((e.mul (F64.lit 1000)).truncInt : ℚ) + 1 < (((e.add (F64.lit 1)).mul (F64.lit 1000)).truncInt : ℚ) := by
    linarith [t1.2, t2.1, p2.2, q2.1, ae2.1]
  have k2 : ((e.mul (F64.lit 1000)).truncInt : ℚ) < 2 ^ 31 - 1 := by
    norm_num; linarith [t1.2, p2.2, hb.2]
  have k3 : -2 ^ 31 < (((e.add (F64.lit 1)).mul (F64.lit 1000)).truncInt : ℚ) := by
    norm_num; linarith [t2.1, q2.1, ae2.1, hb.1]
  have k1' : (e.mul (F64.lit 1000)).truncInt + 1 < ((e.add (F64.lit 1)).mul (F64.lit 1000)).truncInt := by exact_mod_cast k1
  have k2' : (e.mul (F64.lit 1000)).truncInt < 2 ^ 31 - 1 := by exact_mod_cast k2
  have k3' : -2 ^ 31 < ((e.add (F64.lit 1)).mul (F64.lit 1000)).truncInt := by exact_mod_cast k3
  omega

/-- The stopping test: if the compared millis do not exceed, the error exceeds the bound by at most 0.0011. -/
theorem fft_stop_test {err m : F64} (hm : m.isFinite = true) (h0 : 0 ≤ m.val) (h1 : m.val ≤ 1000000)
    (he : err.isNaN = false) (hs : err.sign = false) (hstop : milli err ≤ milli m) :
    err.isFinite = true ∧ err.val ≤ m.val + 11 / 10000 := by
  obtain ⟨p1, p2⟩ := mul1000_err hm (by rw [abs_of_nonneg h0]; linarith)
  have t1 := truncInt_near (m.mul (F64.lit 1000))
  obtain ⟨l1, l2⟩ := lit1000
  have hb0 : (F64.lit 1000).absVal ≠ 0 := absVal_ne_zero_iff.2 (by rw [l1]; norm_num)
  have hen : (err.mul (F64.lit 1000)).isNaN = false := mul_not_nan he l2 (by rw [l1]; norm_num)
  rw [milli_eq hen, milli_eq (isFinite_not_nan p1)] at hstop
  rw [abs_le] at p2
  have hmlt : ((m.mul (F64.lit 1000)).truncInt : ℚ) < 1000000002 := by linarith [t1.2, p2.2]
  have hmlt' : (m.mul (F64.lit 1000)).truncInt < 1000000002 := by exact_mod_cast hmlt
  have hes : (err.mul (F64.lit 1000)).truncInt ≤ (m.mul (F64.lit 1000)).truncInt ∨ (m.mul (F64.lit 1000)).truncInt < -2 ^ 31 := by omega
  have hmge : (-2 : ℚ) < ((m.mul (F64.lit 1000)).truncInt : ℚ) := by linarith [t1.1, p2.1]
  have hmge' : -2 < (m.mul (F64.lit 1000)).truncInt := by exact_mod_cast hmge
  have hle : (err.mul (F64.lit 1000)).truncInt ≤ (m.mul (F64.lit 1000)).truncInt := by
    rcases hes with h | h
    · exact h
    · omega
  have t2 := truncInt_near (err.mul (F64.lit 1000))
  have b21 : (F64.lit 2097152).val = 2097152 := by rw [lit_val' (by decide)]; norm_num
  have b21f : (F64.lit 2097152).isFinite = true := (F64.lit_exact (by decide)).2
  have b21s : (F64.lit 2097152).sign = false := by
    have := @lit_sign 2097152
    push_cast at this; exact this
  have s1000 : (F64.lit 1000).sign = false := by
    have := @lit_sign 1000
    push_cast at this; exact this
  have hle' : ((err.mul (F64.lit 1000)).truncInt : ℚ) ≤ ((m.mul (F64.lit 1000)).truncInt : ℚ) := by exact_mod_cast hle
  have hsmall : err.mag.val < (F64.lit 2097152).mag.val := by
    by_contra hbig
    rw [Nat.not_lt] at hbig
    have hmono := mul_mag_mono (isFinite_not_nan b21f) he l2 hb0 hbig
    obtain ⟨c1, c2⟩ := mul1000_err b21f (by rw [b21]; norm_num)
    have sa := mul_sign_pos b21s s1000 (isFinite_not_nan c1)
    have sb := mul_sign_pos hs s1000 hen
    have hv : ((F64.lit 2097152).mul (F64.lit 1000)).val ≤ (err.mul (F64.lit 1000)).val := by
      rw [val_le_iff (by decide), scaled_pos_sign sa, scaled_pos_sign sb]
      exact Int.ofNat_le.2 (absVal_le_of_mag hmono)
    rw [b21, abs_le] at c2
    linarith [c2.1, t2.1]
  have hf : err.isFinite = true := by
    have : (F64.lit 2097152).mag.val < infMag 52 11 := by simpa [isFinite] using b21f
    simp only [isFinite, decide_eq_true_eq]; omega
  have hev := val_nonneg_sign hs
  have hev2 : err.val ≤ 2097152 := by
    rw [← b21, val_le_iff (by decide), scaled_pos_sign hs, scaled_pos_sign b21s]
    exact Int.ofNat_le.2 (absVal_le_of_mag (by omega))
  refine ⟨hf, ?_⟩
  obtain ⟨q1, q2⟩ := mul1000_err hf (by rw [abs_of_nonneg hev]; linarith)
  rw [abs_le] at q2
  -- the truncation of a non-negative value does not exceed it
  have htr := truncInt_le_max (m.mul (F64.lit 1000))
  have hmax : max 0 (m.mul (F64.lit 1000)).val ≤ m.val * 1000 + 1 / 1000000 := max_le (by linarith) (by linarith [p2.2])
  linarith [q2.1, t2.1]

end Atsc
