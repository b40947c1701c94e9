import Verif.Lemmas.FloatErr
import Verif.Model.Utils
import Mathlib.Algebra.BigOperators.Group.List.Basic
import Mathlib.Algebra.Order.BigOperators.Group.List
/- Error of left-to-right float sums and means of non-negative numbers. -/
namespace Atsc
open FP

/-- Unit roundoff of f64. -/
def u64 : ℚ := 1 / 2 ^ 53
theorem u64_pos : 0 < u64 := by unfold u64; positivity
theorem u64_small : u64 * 2 ^ 53 = 1 := by unfold u64; norm_num

theorem neg_val (x : F64) : x.neg.val = -x.val := by
  rw [val_sgn (by decide), val_sgn (by decide)]
  have h1 : x.neg.absVal = x.absVal := rfl
  have h2 : sgn x.neg.sign = -sgn x.sign := by
    show sgn (!x.sign) = _
    cases x.sign <;> simp [sgn]
  rw [h1, h2]; ring

theorem neg_finite {x : F64} (h : x.isFinite = true) : x.neg.isFinite = true := h
theorem abs_finite {x : F64} (h : x.isFinite = true) : x.abs.isFinite = true := h
theorem val_abs' (x : F64) : x.abs.val = |x.val| := by
  rw [abs_val (by decide), val_sgn (by decide)]
  have h1 : x.abs.absVal = x.absVal := rfl
  have h2 : sgn x.abs.sign = 1 := rfl
  rw [h1, h2, one_mul]

theorem sgn_natAbs (n : Int) : sgn (decide (n < 0)) * ((n.natAbs : Nat) : ℚ) = (n : ℚ) := by
  by_cases hn : n < 0
  · rw [decide_eq_true hn]
    obtain ⟨m, rfl⟩ : ∃ m : Nat, n = -(m : Int) := ⟨n.natAbs, by omega⟩
    simp [sgn]
  · rw [decide_eq_false hn]
    obtain ⟨m, rfl⟩ : ∃ m : Nat, n = (m : Int) := ⟨n.natAbs, by omega⟩
    simp [sgn]

/-- Addition never underflows: its error is purely relative. -/
theorem add_rel {a b : F64} (ha : a.isFinite = true) (hb : b.isFinite = true) (h : |a.val + b.val| ≤ 2 ^ 1023) :
    (a.add b).isFinite = true ∧ |(a.add b).val - (a.val + b.val)| ≤ u64 * |a.val + b.val| := by
  obtain ⟨hf, he⟩ := add_err ha hb h
  refine ⟨hf, ?_⟩
  have hs : a.val + b.val = ((a.scaled + b.scaled : Int) : ℚ) / 2 ^ qexp 52 11 := by
    rw [val_eq (by decide) a, val_eq (by decide) b]; push_cast; ring
  by_cases hbig : (2 : Int) ^ 52 ≤ |a.scaled + b.scaled|
  · have hQ := qpow_posQ 52 11
    have hv : (2 : ℚ) ^ 52 / 2 ^ qexp 52 11 ≤ |a.val + b.val| := by
      rw [hs, abs_div, abs_of_pos hQ]
      apply div_le_div_of_nonneg_right _ hQ.le
      have : ((2 ^ 52 : Int) : ℚ) ≤ ((|a.scaled + b.scaled| : Int) : ℚ) := by exact_mod_cast hbig
      rw [Int.cast_abs] at this
      push_cast at this ⊢
      linarith
    have hmax : ulpErr (a.val + b.val) = u64 * |a.val + b.val| := by
      unfold ulpErr u64
      rw [max_eq_right]
      · ring
      · have e : (2 : ℚ) ^ 52 / 2 ^ qexp 52 11 / 2 ^ 53 = 1 / 2 ^ 1075 := by
          have hq : qexp 52 11 = 1074 := by decide
          rw [hq, div_div, ← pow_add, show 1074 + 53 = 52 + 1075 from rfl, pow_add, ← div_div, div_self (by positivity)]
        rw [← e]
        exact div_le_div_of_nonneg_right hv (by positivity)
    rw [← hmax]; exact he
  · -- the sum is representable
    have hexact : (a.add b).val = a.val + b.val := by
      unfold FP.add
      rw [isFinite_not_nan ha, isFinite_not_nan hb, isFinite_not_inf ha, isFinite_not_inf hb]
      simp only [Bool.or_self, Bool.false_eq_true, if_false]
      rw [hs]
      have hlt : (a.scaled + b.scaled).natAbs < 2 ^ 52 := by
        rw [not_le, Int.abs_eq_natAbs] at hbig
        exact_mod_cast hbig
      split_ifs with h0
      · rw [h0]
        cases (a.sign && b.sign) <;> (rw [val_eq (by decide)]; simp [FP.scaled, FP.absVal, ofPat_mag, magVal, magShift])
      · generalize a.scaled + b.scaled = n at *
        have hmv : magVal 52 n.natAbs = n.natAbs := magVal_small (lt_trans hlt (by norm_num))
        have hr : roundPat 52 n.natAbs 1 = n.natAbs := by
          conv_lhs => rw [← hmv]
          exact roundPat_one_magVal 52 _
        have hinf : n.natAbs < infMag 52 11 := lt_trans hlt (by decide)
        have hof : (ofRound (decide (n < 0)) n.natAbs 1 : F64) = ofPat (decide (n < 0)) n.natAbs := by
          unfold ofRound; rw [hr]
        rw [hof, val_sgn (by decide)]
        have h1 : (ofPat (decide (n < 0)) n.natAbs : F64).absVal = n.natAbs := by
          rw [absVal_ofPat (by omega), hmv]
        have h2 : (ofPat (decide (n < 0)) n.natAbs : F64).sign = decide (n < 0) := rfl
        rw [h1, h2, ← mul_div_assoc, sgn_natAbs]
    rw [hexact, sub_self, abs_zero]
    exact mul_nonneg u64_pos.le (abs_nonneg _)

theorem sub_rel {a b : F64} (ha : a.isFinite = true) (hb : b.isFinite = true) (h : |a.val - b.val| ≤ 2 ^ 1023) :
    (a.sub b).isFinite = true ∧ |(a.sub b).val - (a.val - b.val)| ≤ u64 * |a.val - b.val| := by
  have := add_rel ha (neg_finite hb) (by rw [neg_val, ← sub_eq_add_neg]; exact h)
  rw [neg_val, ← sub_eq_add_neg] at this
  exact this

/-- The bound below which no operation overflows, kept folded. -/
def big64 : ℚ := 2 ^ 1023

/-- Left-to-right sum of non-negative floats. -/
theorem fold_err : ∀ (l : List F64) (acc : F64), acc.isFinite = true → 0 ≤ acc.val → (∀ x ∈ l, x.isFinite = true ∧ 0 ≤ x.val) →
    l.length ≤ 2 ^ 50 → (acc.val + (l.map FP.val).sum) * (1 + 2 * l.length * u64) ≤ big64 →
    (l.foldl FP.add acc).isFinite = true ∧
      |(l.foldl FP.add acc).val - (acc.val + (l.map FP.val).sum)| ≤ 2 * l.length * u64 * (acc.val + (l.map FP.val).sum) := by
  intro l
  induction l with
  | nil => intro acc hf _ _ _ _; simp [hf]
  | cons x l ih =>
    intro acc hf h0 hl hlen hB
    have hu := u64_pos
    have hx := hl x (by simp)
    rw [List.map_cons, List.sum_cons] at hB ⊢
    set S := (l.map FP.val).sum with hS
    have hS0 : 0 ≤ S := by
      apply List.sum_nonneg
      intro v hv
      obtain ⟨y, hy, rfl⟩ := List.mem_map.1 hv
      exact (hl y (by simp [hy])).2
    set k : ℚ := (l.length : ℚ) with hk
    have hk0 : 0 ≤ k := Nat.cast_nonneg _
    have hkl : ((x :: l).length : ℚ) = k + 1 := by simp [hk]
    rw [hkl] at hB ⊢
    have hk1 : (k + 1) * u64 ≤ 1 / 8 := by
      have h1 : k + 1 ≤ 2 ^ 50 := by rw [← hkl]; exact_mod_cast hlen
      have h2 := u64_small
      nlinarith
    have hW : 0 ≤ acc.val + (x.val + S) := by linarith [hx.2]
    have hsum : |acc.val + x.val| ≤ big64 := by
      rw [abs_of_nonneg (by linarith [hx.2])]
      refine le_trans ?_ hB
      nlinarith [mul_nonneg hW (mul_nonneg (by linarith : 0 ≤ 2 * (k + 1)) hu.le)]
    obtain ⟨ha, he⟩ := add_rel hf hx.1 hsum
    rw [abs_of_nonneg (show 0 ≤ acc.val + x.val by linarith [hx.2])] at he
    have ⟨e1, e2⟩ := abs_le.1 he
    have hu8 : u64 ≤ 1 / 8 := by nlinarith
    have ha0 : 0 ≤ (acc.add x).val := by nlinarith [hx.2]
    have hd : |(acc.add x).val + S - (acc.val + (x.val + S))| ≤ u64 * (acc.val + (x.val + S)) := by
      have : (acc.add x).val + S - (acc.val + (x.val + S)) = (acc.add x).val - (acc.val + x.val) := by ring
      rw [this]
      refine le_trans he ?_
      apply mul_le_mul_of_nonneg_left _ hu.le
      linarith
    have ⟨d1, d2⟩ := abs_le.1 hd
    have hku : 0 ≤ k * u64 := mul_nonneg hk0 hu.le
    have hk2 : u64 * (2 * k * u64) ≤ u64 * 1 := mul_le_mul_of_nonneg_left (by linarith) hu.le
    have hkey : (1 + u64) * (1 + 2 * k * u64) ≤ 1 + 2 * (k + 1) * u64 := by nlinarith
    obtain ⟨rf, re⟩ := ih (acc.add x) ha ha0 (fun y hy => hl y (by simp [hy])) (by simp at hlen; omega) (by
      refine le_trans ?_ hB
      have : (acc.add x).val + S ≤ (acc.val + (x.val + S)) * (1 + u64) := by linarith
      calc ((acc.add x).val + S) * (1 + 2 * k * u64) ≤ ((acc.val + (x.val + S)) * (1 + u64)) * (1 + 2 * k * u64) :=
            mul_le_mul_of_nonneg_right this (by nlinarith)
        _ = (acc.val + (x.val + S)) * ((1 + u64) * (1 + 2 * k * u64)) := by ring
        _ ≤ _ := mul_le_mul_of_nonneg_left hkey hW)
    rw [List.foldl_cons]
    refine ⟨rf, ?_⟩
    have tri := abs_sub_le (l.foldl FP.add (acc.add x)).val ((acc.add x).val + S) (acc.val + (x.val + S))
    refine le_trans tri ?_
    have hb1 : 2 * k * u64 * ((acc.add x).val + S) ≤ 2 * k * u64 * ((acc.val + (x.val + S)) * (1 + u64)) :=
      mul_le_mul_of_nonneg_left (by linarith) (by nlinarith)
    have : 2 * k * u64 * ((acc.val + (x.val + S)) * (1 + u64)) + u64 * (acc.val + (x.val + S)) ≤ 2 * (k + 1) * u64 * (acc.val + (x.val + S)) := by
      have h3 : 2 * k * u64 * (1 + u64) + u64 ≤ 2 * (k + 1) * u64 := by nlinarith
      nlinarith
    linarith

theorem zero_val : (FP.zero : F64).val = 0 ∧ (FP.zero : F64).isFinite = true := by
  refine ⟨?_, by decide +kernel⟩
  rw [val_eq (by decide), show (FP.zero : F64).scaled = 0 by decide +kernel]; simp

theorem fsum_err (l : List F64) (hl : ∀ x ∈ l, x.isFinite = true ∧ 0 ≤ x.val) (hlen : l.length ≤ 2 ^ 50) (hB : (l.map FP.val).sum ≤ 2 ^ 1000) :
    (fsum l).isFinite = true ∧ |(fsum l).val - (l.map FP.val).sum| ≤ 2 * l.length * u64 * (l.map FP.val).sum := by
  have h := fold_err l FP.zero zero_val.2 (by rw [zero_val.1]) hl hlen
  rw [zero_val.1, zero_add] at h
  apply h
  have hS0 : 0 ≤ (l.map FP.val).sum := by
    apply List.sum_nonneg
    intro v hv
    obtain ⟨y, hy, rfl⟩ := List.mem_map.1 hv
    exact (hl y hy).2
  have h1 : (l.length : ℚ) ≤ 2 ^ 50 := by exact_mod_cast hlen
  have h2 := u64_small
  have hu := u64_pos
  have h3 : 1 + 2 * l.length * u64 ≤ 2 := by nlinarith
  calc (l.map FP.val).sum * (1 + 2 * l.length * u64) ≤ (l.map FP.val).sum * 2 := mul_le_mul_of_nonneg_left h3 hS0
    _ ≤ 2 ^ 1000 * 2 := by linarith
    _ = 2 ^ 1001 := by rw [← pow_succ]
    _ ≤ 2 ^ 1023 := pow_le_pow_right₀ (by norm_num) (by norm_num)

end Atsc
