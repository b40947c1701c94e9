import Verif.Props.Tighter
import Verif.Lemmas.MeanErr
import Verif.Spec.Dummy
/- C102: the several entry points of one compressor agree.  C103: fixed-point conversion. -/
namespace Atsc
open FP

/-! ### C102 -/

/-- `compress_bounded` returns the bytes of `get_compress_bounded_results`: for every compressor, data and bound they succeed on the same inputs,
and with the same bytes. -/
theorem C102_bounded (E : Ext) (c : Compressor) (data : List F64) (e : F64) (bs : Bytes) :
    c.compressBounded E data e = .ok bs ↔ ∃ r, c.boundedResults E data e = .ok r ∧ r.data = bs := by
  unfold Compressor.compressBounded Compressor.boundedResults
  cases DataStats.new data with
  | error p => constructor <;> intro h <;> first | (cases h; done) | (obtain ⟨r, h, -⟩ := h; cases h)
  | ok st =>
    have key : ∀ o : Except Panic CResult, (o >>= fun r => Except.ok r.data) = .ok bs ↔ ∃ r, o = .ok r ∧ r.data = bs := by
      intro o
      cases o with
      | error p => constructor <;> intro h <;> first | (cases h; done) | (obtain ⟨r, h, -⟩ := h; cases h)
      | ok r =>
        constructor
        · intro h; exact ⟨r, rfl, Except.ok.inj h⟩
        · rintro ⟨r', h, rfl⟩; cases h; rfl
    cases c
    case fft => exact key _
    case polynomial => exact key _
    case idw => exact key _
    case auto => constructor <;> intro h <;> first | (cases h; done) | (obtain ⟨r, h, -⟩ := h; cases h)
    all_goals
      constructor
      · intro h; exact ⟨_, rfl, Except.ok.inj h⟩
      · rintro ⟨r', h, rfl⟩; cases h; rfl

/-- `fft_allowed_error`, which looks for the smallest and largest sample itself, gives what the FFT compressor gives from the chunk statistics:
the same bytes, the same error, or the same panic. -/
theorem C102_fft_bounded (E : Ext) (data : List F64) (e : F64) : fftAllowedError E data e = Compressor.fft.boundedResults E data e := by
  cases data with
  | nil => rfl
  | cons d0 r =>
    unfold Compressor.boundedResults
    cases h : DataStats.new (d0 :: r) with
    | error p => cases h
    | ok st =>
      have hm := minMax_stats h
      simp only [fftAllowedError, hm]
      rfl

/-- `polynomial_allowed_error` is what the Polynomial and Idw compressors run. -/
theorem C102_poly_bounded (E : Ext) (data : List F64) (e : F64) :
    polynomialAllowedError E data e .polynomial = Compressor.polynomial.boundedResults E data e ∧
    polynomialAllowedError E data e .idw = Compressor.idw.boundedResults E data e := by
  unfold Compressor.boundedResults polynomialAllowedError
  cases DataStats.new data with
  | error p => exact ⟨rfl, rfl⟩
  | ok st => exact ⟨rfl, rfl⟩

/-- Without a bound the FFT compressor is `fft_set` with a hundredth of the samples, but at least three, as the number of frequencies. -/
theorem C102_fft_plain (E : Ext) (data : List F64) :
    Compressor.fft.compress E data = fftSet E data (max 3 (data.length / 100)) := by
  have hb : baselinePoints data.length = max 3 (data.length / 100) := by unfold baselinePoints; split_ifs <;> omega
  cases data with
  | nil => rfl
  | cons d0 r =>
    unfold Compressor.compress
    cases h : DataStats.new (d0 :: r) with
    | error p => cases h
    | ok st =>
      rw [← hb]
      rfl

/-- The compressors that take no bound give the same bytes with and without one. -/
theorem C102_unbounded (E : Ext) (c : Compressor) (hc : c = .noop ∨ c = .constant ∨ c = .rle) (data : List F64) (e : F64) :
    c.compressBounded E data e = c.compress E data := by
  rcases hc with rfl | rfl | rfl <;> rfl

/-- The functions do return bytes: three distinct samples through `fft_allowed_error` and through the FFT compressor. -/
example : okAnd (fftAllowedError Ext.dummy [F64.lit 1, F64.lit 2, F64.lit 4] (F64.lit 1)) (fun r => decide (10 < r.data.length)) = true ∧
    okAnd (Compressor.fft.boundedResults Ext.dummy [F64.lit 1, F64.lit 2, F64.lit 4] (F64.lit 1)) (fun r => decide (10 < r.data.length)) = true := by
  decide +kernel

example : okAnd (Compressor.rle.compressBounded Ext.dummy [F64.lit 1, F64.lit 1, F64.lit 4] (F64.lit 1)) (fun bs => decide (5 < bs.length)) = true := by
  decide +kernel

/-! ### C103 -/

theorem f64ToU64_ok {x : F64} {p : Nat} (hp : p ≤ 6) : f64ToU64 x p = .ok ((x.mul (F64.lit (10 ^ p))).toInt 0 (2 ^ 64 - 1)) := by
  unfold f64ToU64
  rw [if_neg (by omega)]

/-- The only panic is the announced one. -/
theorem C103_panics (x : F64) (p : Nat) : (∃ r, f64ToU64 x p = .ok r) ↔ p ≤ 6 := by
  constructor
  · rintro ⟨r, h⟩
    by_contra hp
    unfold f64ToU64 at h
    rw [if_pos (by omega)] at h
    cases h
  · intro hp; exact ⟨_, f64ToU64_ok hp⟩


theorem ten_lit {p : Nat} (hp : p ≤ 6) : (F64.lit (10 ^ p)).val = 10 ^ p ∧ (F64.lit (10 ^ p)).isFinite = true ∧ (F64.lit (10 ^ p)).sign = false := by
  obtain ⟨h1, h2⟩ := lit10 (d := p) (by omega)
  have := lit_sign (n := 10 ^ p)
  push_cast at this
  exact ⟨h1, h2, this⟩

/-- Multiplication, for finite operands. -/
theorem mul_fin {a b : F64} (ha : a.isFinite = true) (hb : b.isFinite = true) :
    a.mul b = ofRound (a.sign != b.sign) (a.absVal * b.absVal) (2 ^ qexp 52 11) := by
  unfold FP.mul
  rw [isFinite_not_nan ha, isFinite_not_nan hb, isFinite_not_inf ha, isFinite_not_inf hb]
  rfl

/-- A product of finite floats lies between the same integers as the exact product, as long as these have at most 53 bits. -/
theorem mul_between {a b : F64} (ha : a.isFinite = true) (hb : b.isFinite = true) {N M : Nat} (hM : M ≤ 2 ^ 53)
    (h1 : (N : ℚ) ≤ |a.val * b.val|) (h2 : |a.val * b.val| ≤ M) :
    N * 2 ^ qexp 52 11 ≤ (a.mul b).absVal ∧ (a.mul b).absVal ≤ M * 2 ^ qexp 52 11 ∧ (a.mul b).isNaN = false := by
  have hq : (0 : ℚ) < 2 ^ qexp 52 11 := qpow_posQ 52 11
  have hqn : 0 < 2 ^ qexp 52 11 := qpow_pos 52 11
  have hN : N ≤ 2 ^ 53 := by
    have : (N : ℚ) ≤ M := le_trans h1 h2
    have : N ≤ M := by exact_mod_cast this
    omega
  rw [abs_mul, abs_val (by decide), abs_val (by decide)] at h1 h2
  rw [mul_fin ha hb]
  generalize (a.sign != b.sign) = s
  obtain ⟨k, hk⟩ := exists_pat_mul_pow 52 (m := N) (s := qexp 52 11) hN
  obtain ⟨l, hl⟩ := exists_pat_mul_pow 52 (m := M) (s := qexp 52 11) hM
  have e1 : magVal 52 k * 2 ^ qexp 52 11 ≤ a.absVal * b.absVal := by
    rw [hk]
    rw [div_mul_div_comm, le_div_iff₀ (by positivity)] at h1
    have : N * (2 ^ qexp 52 11 * 2 ^ qexp 52 11) ≤ a.absVal * b.absVal := by exact_mod_cast h1
    rw [mul_assoc]; exact this
  have e2 : a.absVal * b.absVal ≤ magVal 52 l * 2 ^ qexp 52 11 := by
    rw [hl]
    rw [div_mul_div_comm, div_le_iff₀ (by positivity)] at h2
    have : a.absVal * b.absVal ≤ M * (2 ^ qexp 52 11 * 2 ^ qexp 52 11) := by exact_mod_cast h2
    rw [mul_assoc]; exact this
  have f1 := le_roundPat_of_le (mb := 52) hqn e1
  have f2 := roundPat_le_of_le (mb := 52) hqn e2
  have hli : l < infMag 52 11 := by
    refine (magVal_lt_iff (mb := 52)).1 ?_
    rw [hl, magVal_infMag 52 (by decide)]
    calc M * 2 ^ qexp 52 11 ≤ 2 ^ 53 * 2 ^ qexp 52 11 := Nat.mul_le_mul_right _ hM
      _ < _ := by rw [← pow_add, ← pow_add]; exact Nat.pow_lt_pow_right (by decide) (by decide)
  unfold ofRound
  generalize hr : roundPat 52 (a.absVal * b.absVal) (2 ^ qexp 52 11) = r at *
  rw [absVal_ofPat (by omega), ← hk, ← hl]
  refine ⟨magVal_le_iff.2 f1, magVal_le_iff.2 f2, ?_⟩
  unfold FP.isNaN
  rw [ofPat_mag]
  simp

/-- **The conversion**: for a sample of at least 0 whose scaled value `x · 10^p` is at most 2^53 the result lies between the integers next to the scaled value,
so it is the scaled value itself whenever that is an integer. -/
theorem C103_value (x : F64) (hx : x.isFinite = true) (h0 : 0 ≤ x.val) (p : Nat) (hp : p ≤ 6) (hb : x.val * 10 ^ p ≤ 2 ^ 53) :
    ∃ r : Int, f64ToU64 x p = .ok r ∧ ⌊x.val * 10 ^ p⌋ ≤ r ∧ r ≤ ⌈x.val * 10 ^ p⌉ := by
  refine ⟨_, f64ToU64_ok hp, ?_⟩
  obtain ⟨t1, t2, t3⟩ := ten_lit hp
  have hv0 : 0 ≤ x.val * 10 ^ p := mul_nonneg h0 (by positivity)
  have hM : ⌈x.val * 10 ^ p⌉₊ ≤ 2 ^ 53 := Nat.ceil_le.2 (by push_cast; exact hb)
  obtain ⟨m1, m2, m3⟩ := mul_between hx t2 (N := ⌊x.val * 10 ^ p⌋₊) (M := ⌈x.val * 10 ^ p⌉₊) hM
    (by rw [t1, abs_of_nonneg hv0]; exact Nat.floor_le hv0) (by rw [t1, abs_of_nonneg hv0]; exact Nat.le_ceil _)
  rw [← Int.natCast_floor_eq_floor hv0, ← Int.natCast_ceil_eq_ceil hv0]
  have hqn : 0 < 2 ^ qexp 52 11 := qpow_pos 52 11
  have hNM : ⌊x.val * 10 ^ p⌋₊ ≤ ⌈x.val * 10 ^ p⌉₊ := Nat.floor_le_ceil _
  have hzero : x.sign = true → ⌈x.val * 10 ^ p⌉₊ = 0 := by
    intro hs
    have : x.val ≤ 0 := by
      rw [val_sgn (by decide), hs]
      have h1 : (0 : ℚ) ≤ (x.absVal : ℚ) / 2 ^ qexp 52 11 := div_nonneg (Nat.cast_nonneg _) (qpow_posQ 52 11).le
      have h2 : sgn true = -1 := rfl
      rw [h2]
      generalize (x.absVal : ℚ) / 2 ^ qexp 52 11 = A at *
      linarith
    have : x.val = 0 := le_antisymm this h0
    rw [this]
    norm_num
  have hpos : x.sign = false → (x.mul (F64.lit (10 ^ p))).sign = false := fun h => mul_sign_pos h t3 m3
  generalize (x.mul (F64.lit (10 ^ p))) = y at *
  generalize ⌊x.val * 10 ^ p⌋₊ = N at *
  generalize ⌈x.val * 10 ^ p⌉₊ = M at *
  have d1 : N ≤ y.absVal / 2 ^ qexp 52 11 := (Nat.le_div_iff_mul_le hqn).2 m1
  have d2 : y.absVal / 2 ^ qexp 52 11 ≤ M := by
    have := Nat.div_le_div_right (c := 2 ^ qexp 52 11) m2
    rwa [Nat.mul_div_cancel _ hqn] at this
  have ht : y.truncInt = ((y.absVal / 2 ^ qexp 52 11 : Nat) : Int) := by
    unfold truncInt
    cases hs : x.sign with
    | false => rw [hpos hs, if_neg Bool.false_ne_true]
    | true =>
      have : y.absVal / 2 ^ qexp 52 11 = 0 := by have := hzero hs; omega
      rw [this]; simp
  unfold toInt
  rw [m3, if_neg Bool.false_ne_true, ht]
  generalize y.absVal / 2 ^ qexp 52 11 = T at *
  have : (2 : Int) ^ 64 - 1 = 18446744073709551615 := by norm_num
  have h53 : (2 : Nat) ^ 53 = 9007199254740992 := by norm_num
  rw [this]
  rw [h53] at hM
  omega

/-- Integers are converted exactly. -/
theorem C103_integers (n p : Nat) (hp : p ≤ 6) (hb : n * 10 ^ p ≤ 2 ^ 53) : f64ToU64 (F64.lit n) p = .ok ((n * 10 ^ p : Nat) : Int) := by
  have hn : n ≤ 2 ^ 53 := le_trans (Nat.le_mul_of_pos_right _ (by positivity)) hb
  have hn' : ((n : Int)).natAbs ≤ 2 ^ 53 := by simpa using hn
  have hv : (F64.lit n).val = n := by rw [lit_val' hn']; norm_cast
  obtain ⟨r, h1, h2, h3⟩ := C103_value (F64.lit n) (F64.lit_exact hn').2 (by rw [hv]; positivity) p hp (by rw [hv]; exact_mod_cast hb)
  rw [hv, show (n : ℚ) * 10 ^ p = ((n * 10 ^ p : Nat) : ℚ) by push_cast; rfl] at h2 h3
  rw [Int.floor_natCast] at h2
  rw [Int.ceil_natCast] at h3
  rw [h1, le_antisymm h3 h2]

theorem toInt_neg {y : F64} (hs : y.sign = true) : y.toInt 0 (2 ^ 64 - 1) = 0 := by
  unfold toInt truncInt
  rw [hs, if_pos rfl]
  generalize y.absVal / 2 ^ qexp 52 11 = T
  have : (2 : Int) ^ 64 - 1 = 18446744073709551615 := by norm_num
  rw [this]
  split_ifs <;> omega

/-- Negative samples (and NaN) give 0: they are not told apart from a real 0. -/
theorem C103_negative (x : F64) (h : x.sign = true ∨ x.isNaN = true) (p : Nat) (hp : p ≤ 6) : f64ToU64 x p = .ok 0 := by
  rw [f64ToU64_ok hp]
  obtain ⟨t1, t2, t3⟩ := ten_lit hp
  by_cases hn : (x.mul (F64.lit (10 ^ p))).isNaN = true
  · unfold toInt; rw [hn]; rfl
  · rcases h with h | h
    · rw [toInt_neg]
      have hx : x.isNaN = false := by
        cases hh : x.isNaN with
        | false => rfl
        | true => exact absurd (by unfold FP.mul; rw [hh]; rfl) hn
      unfold FP.mul at hn ⊢
      split_ifs at hn ⊢ with h1 h2 h3
      · exact absurd rfl hn
      · exact absurd rfl hn
      · rw [FP.inf, ofPat_sign, h, t3]; rfl
      · rw [ofRound_sign, h, t3]; rfl
    · exact absurd (by unfold FP.mul; rw [h]; rfl) hn


/-- The result of a multiplication that is not NaN is at least a power of two that the exact product reaches. -/
theorem toInt_sat {y : F64} (hn : y.isNaN = false) (hs : y.sign = false) (h : 2 ^ 64 * 2 ^ qexp 52 11 ≤ y.absVal) :
    y.toInt 0 (2 ^ 64 - 1) = 2 ^ 64 - 1 := by
  have hqn : 0 < 2 ^ qexp 52 11 := qpow_pos 52 11
  have d1 : 2 ^ 64 ≤ y.absVal / 2 ^ qexp 52 11 := (Nat.le_div_iff_mul_le hqn).2 h
  unfold toInt truncInt
  rw [hn, if_neg Bool.false_ne_true, hs, if_neg Bool.false_ne_true]
  generalize y.absVal / 2 ^ qexp 52 11 = T at *
  have e1 : (2 : Int) ^ 64 - 1 = 18446744073709551615 := by norm_num
  have e2 : (2 : Nat) ^ 64 = 18446744073709551616 := by norm_num
  rw [e1]
  rw [e2] at d1
  omega

theorem pat_two64 (q : Nat) : ∃ k, magVal 52 k = 2 ^ 64 * 2 ^ q := by
  obtain ⟨k, hk⟩ := exists_pat_mul_pow 52 (m := 1) (s := 64 + q) (by decide)
  exact ⟨k, by rw [hk, one_mul, pow_add]⟩

/-- Values that do not fit give the largest u64: no wrapping. -/
theorem C103_saturates (x : F64) (hn : x.isNaN = false) (hs : x.sign = false) (p : Nat) (hp : p ≤ 6)
    (h : x.isFinite = false ∨ 2 ^ 64 ≤ x.val * 10 ^ p) : f64ToU64 x p = .ok (2 ^ 64 - 1) := by
  rw [f64ToU64_ok hp]
  obtain ⟨t1, t2, t3⟩ := ten_lit hp
  have t0 : (F64.lit (10 ^ p)).val ≠ 0 := by rw [t1]; positivity
  have hnn := mul_not_nan hn t2 t0
  have hss := mul_sign_pos hs t3 hnn
  rw [toInt_sat hnn hss]
  obtain ⟨k, hk⟩ := pat_two64 (qexp 52 11)
  have hki : k < infMag 52 11 := by
    refine (magVal_lt_iff (mb := 52)).1 ?_
    rw [hk, magVal_infMag 52 (by decide), ← pow_add, ← pow_add]
    exact Nat.pow_lt_pow_right (by decide) (by decide)
  have hqn : 0 < 2 ^ qexp 52 11 := qpow_pos 52 11
  by_cases hf : x.isFinite = true
  · rcases h with h | h
    · rw [h] at hf; cases hf
    rw [mul_fin hf t2]
    have h' : (2 : ℚ) ^ 64 ≤ |x.val * (F64.lit (10 ^ p)).val| := by rw [t1]; exact le_trans h (le_abs_self _)
    rw [abs_mul, abs_val (by decide), abs_val (by decide), div_mul_div_comm, le_div_iff₀ (mul_pos (qpow_posQ 52 11) (qpow_posQ 52 11))] at h'
    have e1 : magVal 52 k * 2 ^ qexp 52 11 ≤ x.absVal * (F64.lit (10 ^ p)).absVal := by
      rw [hk, mul_assoc]
      generalize qexp 52 11 = q at h' ⊢
      exact_mod_cast h'
    have f1 := le_roundPat_of_le (mb := 52) hqn e1
    rw [← hk]
    unfold ofRound
    generalize roundPat 52 _ _ = r at *
    unfold FP.absVal
    rw [ofPat_mag]
    refine magVal_le_iff.2 ?_
    omega
  · have hi : x.isInf = true := by
      unfold FP.isFinite at hf; unfold FP.isInf; unfold FP.isNaN at hn
      simp at hf hn ⊢
      omega
    have e : x.mul (F64.lit (10 ^ p)) = FP.inf (x.sign != (F64.lit (10 ^ p)).sign) := by
      unfold FP.mul
      have ha := absVal_ne_zero_iff.2 t0
      rw [hn, isFinite_not_nan t2, hi]
      have hx0 : x.absVal ≠ 0 := by
        unfold FP.isInf at hi
        simp at hi
        apply absVal_ne_zero_of_mag
        rw [hi]; decide
      simp [ha, hx0]
    rw [e, ← hk]
    unfold FP.absVal FP.inf
    rw [ofPat_mag]
    refine magVal_le_iff.2 ?_
    omega

/-- From 2^53 to 2^64 the result is within one unit and the relative error of one rounding. -/
theorem C103_large (x : F64) (hx : x.isFinite = true) (p : Nat) (hp : p ≤ 6) (h1 : 1 ≤ x.val * 10 ^ p) (h2 : x.val * 10 ^ p ≤ 2 ^ 64) :
    ∃ r : Int, f64ToU64 x p = .ok r ∧ |(r : ℚ) - x.val * 10 ^ p| ≤ 1 + x.val * 10 ^ p / 2 ^ 53 := by
  refine ⟨_, f64ToU64_ok hp, ?_⟩
  obtain ⟨t1, t2, t3⟩ := ten_lit hp
  have hv0 : 0 ≤ x.val * 10 ^ p := by linarith
  obtain ⟨m1, m2⟩ := mul_err hx t2 (by
    rw [t1, abs_of_nonneg hv0]; exact le_trans h2 (qpow_le (by norm_num)))
  rw [t1] at m2
  have hu : ulpErr (x.val * 10 ^ p) = x.val * 10 ^ p / 2 ^ 53 := by
    unfold ulpErr
    rw [abs_of_nonneg hv0]
    refine max_eq_right ?_
    have : (1 : ℚ) / 2 ^ 1075 ≤ 1 / 2 ^ 53 := one_div_le_one_div_of_le (by positivity) (qpow_le (by norm_num))
    refine le_trans this ?_
    exact div_le_div_of_nonneg_right h1 (by positivity)
  rw [hu] at m2
  obtain ⟨n1, n2⟩ := truncInt_near (x.mul (F64.lit (10 ^ p)))
  have n3 := truncInt_le_max (x.mul (F64.lit (10 ^ p)))
  unfold toInt
  rw [isFinite_not_nan m1, if_neg Bool.false_ne_true]
  generalize (x.mul (F64.lit (10 ^ p))).val = w at *
  generalize (x.mul (F64.lit (10 ^ p))).truncInt = T at *
  generalize x.val * 10 ^ p = v at *
  have hd : v / 2 ^ 53 ≤ v / 2 := div_le_div_of_nonneg_left hv0 (by norm_num) (by norm_num)
  rw [abs_le] at m2
  have hT0 : 0 ≤ T := by
    have : (-1 : ℚ) < T := by linarith
    have : -1 < T := by exact_mod_cast this
    omega
  have hT : (T : ℚ) ≤ w := by
    rw [max_eq_right (by linarith)] at n3; exact n3
  rw [max_eq_right (by omega)]
  rcases le_total T (2 ^ 64 - 1) with h | h
  · rw [min_eq_right h, abs_le]
    constructor <;> linarith
  · rw [min_eq_left h, abs_le]
    have h' : ((2 : ℚ) ^ 64 - 1) ≤ T := by exact_mod_cast h
    have hd0 : 0 ≤ v / 2 ^ 53 := div_nonneg hv0 (by positivity)
    push_cast
    constructor <;> linarith

/-- Larger samples give larger results. -/
theorem C103_monotone (x y : F64) (h : x.le y = true) (p : Nat) (hp : p ≤ 6) :
    ∃ r r' : Int, f64ToU64 x p = .ok r ∧ f64ToU64 y p = .ok r' ∧ r ≤ r' := by
  refine ⟨_, _, f64ToU64_ok hp, f64ToU64_ok hp, ?_⟩
  have hx : x.isNaN = false := by
    cases hh : x.isNaN with
    | false => rfl
    | true => unfold FP.le at h; rw [hh] at h; cases h
  have hy : y.isNaN = false := by
    cases hh : y.isNaN with
    | false => rfl
    | true => unfold FP.le at h; rw [hh] at h; simp at h
  obtain ⟨t1, t2, t3⟩ := ten_lit hp
  have t0 : (F64.lit (10 ^ p)).val ≠ 0 := by rw [t1]; positivity
  have hnn := mul_not_nan hy t2 t0
  have hr := (toInt_bounds (lo := 0) (hi := 2 ^ 64 - 1) (y.mul (F64.lit (10 ^ p))) (by norm_num) le_rfl (by norm_num)).1
  cases hs : x.sign with
  | true =>
    have := C103_negative x (Or.inl hs) p hp
    rw [f64ToU64_ok hp] at this
    rw [Except.ok.inj this]; exact hr
  | false =>
    have h0 : 0 ≤ x.scaled := by unfold FP.scaled; rw [hs]; simp
    have hle : x.scaled ≤ y.scaled := by
      unfold FP.le at h; rw [hx, hy] at h; simpa using h
    cases hs' : y.sign with
    | false =>
      have hm : x.mag.val ≤ y.mag.val := by
        have h3 : x.absVal ≤ y.absVal := by rw [← scaled_natAbs, ← scaled_natAbs]; omega
        exact magVal_le_iff.1 h3
      have hmm := mul_mag_mono hx hy t2 (absVal_ne_zero_iff.2 t0) hm
      have := truncInt_nonneg_mono (mul_sign_pos hs' t3 hnn) hmm
      unfold toInt
      rw [mul_not_nan hx t2 t0, hnn]
      simp only [Bool.false_eq_true, if_false]
      omega
    | true =>
      -- then both are zeros
      have hy0 : y.absVal = 0 := by
        unfold FP.scaled at h0 hle; rw [hs'] at hle; simp at h0 hle
        omega
      have hx0 : x.absVal = 0 := by
        have h3 : x.absVal ≤ y.absVal := by rw [← scaled_natAbs, ← scaled_natAbs]; omega
        omega
      have hv : x.val = 0 := by
        by_contra hne
        exact absVal_ne_zero_iff.2 hne hx0
      have hf : x.isFinite = true := by
        have hm : x.mag.val = 0 := by unfold FP.absVal at hx0; exact magVal_eq_zero.1 hx0
        unfold FP.isFinite; rw [hm]; decide
      obtain ⟨r, e1, e2, e3⟩ := C103_value x hf (by rw [hv]) p hp (by rw [hv]; norm_num)
      rw [f64ToU64_ok hp] at e1
      rw [Except.ok.inj e1]
      rw [hv] at e3
      norm_num at e3
      omega

/-- The hypotheses are met: 2.5 with one decimal is 25, 0.29 with two decimals is 28 (the double is a little less than 0.29),
-3 is 0, 10^20 is the largest u64. -/
theorem fixed_examples : (okAnd (f64ToU64 (FP.ofBits 0x4004000000000000) 1) fun r => decide (r = 25)) = true ∧
    (okAnd (f64ToU64 (FP.ofBits 0x3fd28f5c28f5c28f) 2) fun r => decide (r = 28)) = true ∧
    (okAnd (f64ToU64 (F64.lit (-3)) 0) fun r => decide (r = 0)) = true ∧
    (okAnd (f64ToU64 (F64.lit (10 ^ 20)) 0) fun r => decide (r = 2 ^ 64 - 1)) = true := by decide +kernel

/-- 0.3 with one decimal is 3, although the double 0.3 is less than three tenths: the result can be above the scaled value. -/
theorem C103_refuted_floor : ∃ (x : F64) (r : Int), f64ToU64 x 1 = .ok r ∧ x.isFinite = true ∧ x.val * 10 < r := by
  refine ⟨FP.ofBits 0x3fd3333333333333, 3, ?_, by decide +kernel, ?_⟩
  · have h : (okAnd (f64ToU64 (FP.ofBits 0x3fd3333333333333) 1) fun r => decide (r = 3)) = true := by decide +kernel
    obtain ⟨r, h1, h2⟩ := okAnd_iff.1 h
    rw [h1, of_decide_eq_true h2]
  · rw [val_eq (by decide)]
    have h : (FP.ofBits 0x3fd3333333333333 : F64).scaled * 10 < 3 * (2 ^ qexp 52 11 : Nat) := by decide +kernel
    have h' : ((FP.ofBits 0x3fd3333333333333 : F64).scaled : ℚ) * 10 < 3 * 2 ^ qexp 52 11 := by exact_mod_cast h
    have hq := qpow_posQ 52 11
    rw [div_mul_eq_mul_div, div_lt_iff₀ hq]
    exact_mod_cast h'

end Atsc
