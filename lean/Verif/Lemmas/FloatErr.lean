import Verif.Lemmas.Round
import Mathlib.Tactic.Positivity
import Mathlib.Tactic.Linarith
/- Error bounds of the rounded operations, in terms of the rational values. -/
namespace Atsc
open FP

/-- Absolute error of rounding, in units of the smallest subnormal. -/
theorem roundPat_err (mb p : Nat) {q : Nat} (hq : 0 < q) :
    |(magVal mb (roundPat mb p q) : ℚ) - p / q| ≤ max (1 / 2) ((p : ℚ) / q / 2 ^ (mb + 1)) := by
  have ⟨a, b⟩ := floorPat_div_spec mb p hq
  have hc := roundPat_cases mb p hq
  generalize hf : floorPat mb (p / q) = f at *
  have hs := magVal_succ mb f
  rw [hs] at hc b
  have hqQ : (0 : ℚ) < q := by exact_mod_cast hq
  -- distance at most half a step
  have h1 : |(magVal mb (roundPat mb p q) : ℚ) - p / q| ≤ (2 : ℚ) ^ magShift mb f / 2 := by
    rw [abs_le]
    have aQ : (magVal mb f : ℚ) ≤ p / q := by rw [le_div_iff₀ hqQ]; exact_mod_cast a
    have bQ : (p : ℚ) / q < magVal mb f + 2 ^ magShift mb f := by rw [div_lt_iff₀ hqQ]; exact_mod_cast b
    rcases hc with ⟨e, h⟩ | ⟨e, h⟩
    · have hQ : 2 * ((p : ℚ) / q) ≤ magVal mb f + (magVal mb f + 2 ^ magShift mb f) := by
        rw [← mul_div_assoc, div_le_iff₀ hqQ]; exact_mod_cast h
      rw [e]; constructor <;> linarith
    · have hQ : (magVal mb f : ℚ) + (magVal mb f + 2 ^ magShift mb f) ≤ 2 * ((p : ℚ) / q) := by
        rw [← mul_div_assoc, le_div_iff₀ hqQ]; exact_mod_cast h
      rw [e, hs]; push_cast; constructor <;> linarith
  refine le_trans h1 ?_
  by_cases h0 : f / 2 ^ mb ≤ 1
  · apply le_max_of_le_left
    have : magShift mb f = 0 := by unfold magShift; omega
    rw [this]; norm_num
  · apply le_max_of_le_right
    have aQ : (magVal mb f : ℚ) ≤ p / q := by rw [le_div_iff₀ hqQ]; exact_mod_cast a
    have hm : 2 ^ mb * 2 ^ magShift mb f ≤ magVal mb f := by
      rw [magVal_normal (by omega)]
      exact Nat.mul_le_mul_right _ (by omega)
    have hmQ : (2 : ℚ) ^ mb * 2 ^ magShift mb f ≤ magVal mb f := by exact_mod_cast hm
    rw [pow_succ, le_div_iff₀ (by positivity)]
    nlinarith

/-- `-1` or `1`. -/
def sgn (s : Bool) : ℚ := if s then -1 else 1

theorem abs_sgn (s : Bool) : |sgn s| = 1 := by cases s <;> simp [sgn]

theorem val_sgn {mb eb : Nat} (h : 2 ≤ eb) (x : FP mb eb) : x.val = sgn x.sign * ((x.absVal : ℚ) / 2 ^ qexp mb eb) := by
  rw [val_eq h]; unfold scaled sgn; cases x.sign <;> simp [neg_div]

theorem ofRound_err {mb eb : Nat} (h : 2 ≤ eb) (s : Bool) {p q k : Nat} (hq : 0 < q) (hk : k < infMag mb eb)
    (hp : p ≤ magVal mb k * q) :
    (ofRound s p q : FP mb eb).isFinite = true ∧
    |(ofRound s p q : FP mb eb).val - sgn s * ((p : ℚ) / q / 2 ^ qexp mb eb)| ≤
      max (1 / 2 ^ (qexp mb eb + 1)) ((p : ℚ) / q / 2 ^ qexp mb eb / 2 ^ (mb + 1)) := by
  have hr := roundPat_le_of_le hq hp
  have hQ := qpow_posQ mb eb
  refine ⟨by simp [isFinite, ofRound, ofPat_mag]; omega, ?_⟩
  rw [val_sgn h, ofRound_sign, ← mul_sub, abs_mul, abs_sgn, one_mul]
  have : (ofRound s p q : FP mb eb).absVal = magVal mb (roundPat mb p q) := absVal_ofPat (by omega)
  rw [this, ← sub_div, abs_div, abs_of_pos hQ, div_le_iff₀ hQ]
  refine le_trans (roundPat_err mb p hq) ?_
  apply max_le
  · refine le_trans ?_ (mul_le_mul_of_nonneg_right (le_max_left _ _) hQ.le)
    rw [pow_succ]; apply le_of_eq; field_simp
  · refine le_trans ?_ (mul_le_mul_of_nonneg_right (le_max_right _ _) hQ.le)
    apply le_of_eq; field_simp

/-- A bound by `2^1023` keeps an f64 result finite. -/
theorem exists_pat_1023 : ∃ k, k < infMag 52 11 ∧ magVal 52 k = 2 ^ 1023 * 2 ^ qexp 52 11 := by
  obtain ⟨k, hk⟩ := exists_pat_mul_pow 52 (m := 1) (s := 1023 + qexp 52 11) (by decide)
  refine ⟨k, (magVal_lt_iff (mb := 52)).1 ?_, by rw [hk, one_mul, pow_add]⟩
  rw [hk, magVal_infMag 52 (by decide), one_mul, ← pow_add]
  exact Nat.pow_lt_pow_right (by decide) (by decide)

theorem round_bound {p q : Nat} (hq : 0 < q) (h : (p : ℚ) / q / 2 ^ qexp 52 11 ≤ 2 ^ 1023) {k : Nat}
    (hk : magVal 52 k = 2 ^ 1023 * 2 ^ qexp 52 11) : p ≤ magVal 52 k * q := by
  have hqQ : (0 : ℚ) < q := by exact_mod_cast hq
  rw [div_le_iff₀ (qpow_posQ 52 11), div_le_iff₀ hqQ] at h
  rw [hk]; exact_mod_cast h

/-- Rounding error of a correctly rounded f64 operation with exact result `v`. -/
def ulpErr (v : ℚ) : ℚ := max (1 / 2 ^ 1075) (|v| / 2 ^ 53)

theorem ulpErr_le (v : ℚ) : ulpErr v ≤ 1 / 2 ^ 1075 + |v| / 2 ^ 53 := by
  unfold ulpErr
  have : 0 ≤ |v| / 2 ^ 53 := by positivity
  have : (0 : ℚ) ≤ 1 / 2 ^ 1075 := by positivity
  apply max_le <;> linarith

theorem ofRound_err64 (s : Bool) {p q : Nat} (hq : 0 < q) {v : ℚ}
    (hv : v = sgn s * ((p : ℚ) / q / 2 ^ qexp 52 11)) (hb : |v| ≤ 2 ^ 1023) :
    (ofRound s p q : F64).isFinite = true ∧ |(ofRound s p q : F64).val - v| ≤ ulpErr v := by
  obtain ⟨k, hk, hkv⟩ := exists_pat_1023
  have habs : |v| = (p : ℚ) / q / 2 ^ qexp 52 11 := by
    rw [hv, abs_mul, abs_sgn, one_mul,
      abs_of_nonneg (div_nonneg (div_nonneg (Nat.cast_nonneg _) (Nat.cast_nonneg _)) (qpow_posQ 52 11).le)]
  have := ofRound_err (mb := 52) (eb := 11) (by decide) s hq hk (round_bound hq (by rw [← habs]; exact hb) hkv)
  have hq1 : qexp 52 11 + 1 = 1075 := by decide
  rw [← hv, ← habs, hq1] at this
  exact this

theorem sgn_bne (a b : Bool) : sgn (a != b) = sgn a * sgn b := by cases a <;> cases b <;> norm_num [sgn]

theorem mul_err {a b : F64} (ha : a.isFinite = true) (hb : b.isFinite = true) (h : |a.val * b.val| ≤ 2 ^ 1023) :
    (a.mul b).isFinite = true ∧ |(a.mul b).val - a.val * b.val| ≤ ulpErr (a.val * b.val) := by
  have e : a.mul b = ofRound (a.sign != b.sign) (a.absVal * b.absVal) (2 ^ qexp 52 11) := by
    unfold FP.mul
    rw [isFinite_not_nan ha, isFinite_not_nan hb, isFinite_not_inf ha, isFinite_not_inf hb]
    rfl
  rw [e]
  refine ofRound_err64 _ (qpow_pos _ _) ?_ h
  rw [val_sgn (by decide) a, val_sgn (by decide) b, sgn_bne]
  have := (qpow_posQ 52 11).ne'
  push_cast
  field_simp

theorem absVal_ne_zero_iff {x : F64} : x.absVal ≠ 0 ↔ x.val ≠ 0 := by
  rw [not_iff_not, ← abs_eq_zero (a := x.val), abs_val (by decide), div_eq_zero_iff]
  constructor
  · intro h; left; exact_mod_cast h
  · rintro (h | h)
    · exact_mod_cast h
    · exact absurd h (qpow_posQ 52 11).ne'

theorem div_err {a b : F64} (ha : a.isFinite = true) (hb : b.isFinite = true) (h0 : b.val ≠ 0)
    (h : |a.val / b.val| ≤ 2 ^ 1023) :
    (a.div b).isFinite = true ∧ |(a.div b).val - a.val / b.val| ≤ ulpErr (a.val / b.val) := by
  have hb0 := absVal_ne_zero_iff.2 h0
  have e : a.div b = ofRound (a.sign != b.sign) (a.absVal * 2 ^ qexp 52 11) b.absVal := by
    unfold FP.div
    rw [isFinite_not_nan ha, isFinite_not_nan hb, isFinite_not_inf ha, isFinite_not_inf hb]
    simp only [hb0, Bool.or_self, Bool.false_eq_true, if_false]
  rw [e]
  refine ofRound_err64 _ (Nat.pos_of_ne_zero hb0) ?_ h
  rw [val_sgn (by decide) a, val_sgn (by decide) b, sgn_bne]
  have := (qpow_posQ 52 11).ne'
  have hbQ : (b.absVal : ℚ) ≠ 0 := by exact_mod_cast hb0
  have h2 : sgn b.sign * sgn b.sign = 1 := by cases b.sign <;> norm_num [sgn]
  have h3 : sgn b.sign ≠ 0 := by cases b.sign <;> norm_num [sgn]
  push_cast
  rw [div_eq_iff (mul_ne_zero h3 (div_ne_zero hbQ this))]
  field_simp
  rw [pow_two, h2, mul_one]

theorem add_err {a b : F64} (ha : a.isFinite = true) (hb : b.isFinite = true) (h : |a.val + b.val| ≤ 2 ^ 1023) :
    (a.add b).isFinite = true ∧ |(a.add b).val - (a.val + b.val)| ≤ ulpErr (a.val + b.val) := by
  have hs : a.val + b.val = ((a.scaled + b.scaled : Int) : ℚ) / 2 ^ qexp 52 11 := by
    rw [val_eq (by decide) a, val_eq (by decide) b]; push_cast; ring
  unfold FP.add
  rw [isFinite_not_nan ha, isFinite_not_nan hb, isFinite_not_inf ha, isFinite_not_inf hb]
  simp only [Bool.or_self, Bool.false_eq_true, if_false]
  split_ifs with h0
  · have hz : a.val + b.val = 0 := by rw [hs, h0]; simp
    refine ⟨?_, ?_⟩
    · cases (a.sign && b.sign) <;> decide
    · have : (ofPat (a.sign && b.sign) 0 : F64).val = 0 := by
        cases (a.sign && b.sign) <;> (rw [val_eq (by decide)]; simp [FP.scaled, FP.absVal, ofPat_mag, magVal, magShift])
      rw [this, hz]; unfold ulpErr; simp
  · refine ofRound_err64 _ Nat.one_pos ?_ h
    rw [hs]
    generalize a.scaled + b.scaled = n at *
    by_cases hn : n < 0
    · obtain ⟨m, rfl⟩ : ∃ m : Nat, n = -(m : Int) := ⟨n.natAbs, by omega⟩
      rw [decide_eq_true hn, Int.natAbs_neg, Int.natAbs_natCast]; simp only [sgn, if_true]; push_cast; ring
    · obtain ⟨m, rfl⟩ : ∃ m : Nat, n = (m : Int) := ⟨n.natAbs, by omega⟩
      rw [decide_eq_false hn, Int.natAbs_natCast]; simp [sgn]

theorem lit_val' {n : Int} (hn : n.natAbs ≤ 2 ^ 53) : (F64.lit n).val = n := by
  rw [val_eq_int (by decide)]; exact (F64.lit_exact hn).1

end Atsc
