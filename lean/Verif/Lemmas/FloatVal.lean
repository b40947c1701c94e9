import Verif.Spec.Float
import Verif.Lemmas.SplitN
import Mathlib.Tactic.FieldSimp
/- The IEEE value agrees with the model's integer representation. -/
namespace Atsc
namespace FP
variable {mb eb : Nat}

theorem val_eq (h : 2 ≤ eb) (x : FP mb eb) : x.val = (x.scaled : ℚ) / (2 : ℚ) ^ qexp mb eb := by
  obtain ⟨B, hB⟩ : ∃ B : Nat, 2 ^ (eb - 1) = B + 2 := by
    have : 2 ^ 1 ≤ 2 ^ (eb - 1) := Nat.pow_le_pow_right (by decide) (by omega)
    exact ⟨2 ^ (eb - 1) - 2, by omega⟩
  have hbias : ((2 : ℤ) ^ (eb - 1) - 1) = (B : ℤ) + 1 := by
    have : ((2 ^ (eb - 1) : Nat) : ℤ) = ((B + 2 : Nat) : ℤ) := by rw [hB]
    push_cast at this; omega
  have hq : qexp mb eb = B + mb := by unfold qexp; omega
  have h2 : (2 : ℚ) ≠ 0 := by norm_num
  unfold val scaled absVal
  simp only [hbias, hq]
  generalize x.mag.val = k
  by_cases he : k / 2 ^ mb = 0
  · have hlt : k < 2 ^ mb := by
      rcases Nat.div_eq_zero_iff.1 he with h | h
      · exact absurd h (ne_of_gt (Nat.two_pow_pos _))
      · exact h
    rw [magVal_small (by rw [pow_succ]; omega)]
    simp only [he, if_true]
    rw [Nat.mod_eq_of_lt hlt]
    have : (2 : ℚ) ^ (1 - ((B : ℤ) + 1)) = 1 / 2 ^ B := by
      rw [show (1 - ((B : ℤ) + 1)) = -(B : ℤ) by ring, zpow_neg, zpow_natCast, one_div]
    rw [this, pow_add]
    cases x.sign
    · simp; ring
    · simp; ring
  · have he1 : 1 ≤ k / 2 ^ mb := Nat.one_le_iff_ne_zero.2 he
    rw [magVal_normal he1]
    simp only [he, if_false]
    obtain ⟨t, ht⟩ : ∃ t, k / 2 ^ mb = t + 1 := ⟨k / 2 ^ mb - 1, by omega⟩
    rw [ht]
    generalize k % 2 ^ mb = m
    have : (2 : ℚ) ^ (((t + 1 : Nat) : ℤ) - ((B : ℤ) + 1)) = 2 ^ t / 2 ^ B := by
      rw [show (((t + 1 : Nat) : ℤ) - ((B : ℤ) + 1)) = (t : ℤ) - (B : ℤ) by push_cast; ring,
        zpow_sub₀ h2, zpow_natCast, zpow_natCast]
    rw [this, pow_add]
    cases x.sign
    · simp; field_simp; ring
    · simp; field_simp; ring

theorem qpow_posQ (mb eb : Nat) : (0 : ℚ) < 2 ^ qexp mb eb := by positivity

theorem val_lt_iff (h : 2 ≤ eb) {x y : FP mb eb} : x.val < y.val ↔ x.scaled < y.scaled := by
  rw [val_eq h, val_eq h, div_lt_div_iff_of_pos_right (qpow_posQ mb eb)]; exact_mod_cast Iff.rfl
theorem val_le_iff (h : 2 ≤ eb) {x y : FP mb eb} : x.val ≤ y.val ↔ x.scaled ≤ y.scaled := by
  rw [val_eq h, val_eq h, div_le_div_iff_of_pos_right (qpow_posQ mb eb)]; exact_mod_cast Iff.rfl
theorem val_eq_iff (h : 2 ≤ eb) {x y : FP mb eb} : x.val = y.val ↔ x.scaled = y.scaled := by
  rw [le_antisymm_iff, val_le_iff h, val_le_iff h, ← le_antisymm_iff]

theorem val_eq_int (h : 2 ≤ eb) {x : FP mb eb} {n : Int} :
    x.val = n ↔ x.scaled = n * (2 ^ qexp mb eb : Nat) := by
  rw [val_eq h, div_eq_iff (ne_of_gt (qpow_posQ mb eb))]
  constructor
  · intro h; exact_mod_cast h
  · intro h; rw [h]; push_cast; ring

theorem abs_val (h : 2 ≤ eb) (x : FP mb eb) : |x.val| = (x.absVal : ℚ) / 2 ^ qexp mb eb := by
  rw [val_eq h, abs_div, abs_of_pos (qpow_posQ mb eb)]
  congr 1
  unfold scaled; split_ifs <;> simp

end FP

open FP
theorem inRange_iff {x : F64} : InRange x ↔ SplitSafe x := by
  have hq : qexp 52 11 = 1074 := by decide
  have hp := qpow_posQ 52 11
  unfold InRange SplitSafe
  rw [FP.abs_val (by decide)]
  have h0 : x.val = 0 ↔ x.absVal = 0 := by
    rw [← abs_eq_zero, FP.abs_val (by decide), div_eq_zero_iff]
    constructor
    · rintro (h | h)
      · exact_mod_cast h
      · exact absurd h (ne_of_gt hp)
    · intro h; left; exact_mod_cast h
  rw [h0]
  have h1 : (2 : ℚ) ^ (-64 : ℤ) ≤ (x.absVal : ℚ) / 2 ^ qexp 52 11 ↔ 2 ^ 1010 ≤ x.absVal := by
    rw [le_div_iff₀ hp, hq, ← zpow_natCast, ← zpow_add₀ (by norm_num : (2:ℚ) ≠ 0),
      show (-64 : ℤ) + ((1074 : Nat) : ℤ) = ((1010 : Nat) : ℤ) by norm_num, zpow_natCast]
    constructor
    · intro h; exact_mod_cast h
    · intro h; exact_mod_cast h
  have h2 : (x.absVal : ℚ) / 2 ^ qexp 52 11 < (2 : ℚ) ^ (63 : ℤ) ↔ x.absVal < 2 ^ 1137 := by
    rw [div_lt_iff₀ hp, hq, ← zpow_natCast, ← zpow_add₀ (by norm_num : (2:ℚ) ≠ 0),
      show (63 : ℤ) + ((1074 : Nat) : ℤ) = ((1137 : Nat) : ℤ) by norm_num, zpow_natCast]
    constructor
    · intro h; exact_mod_cast h
    · intro h; exact_mod_cast h
  rw [h1, h2]

end Atsc
