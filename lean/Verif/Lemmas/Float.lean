import Verif.Lemmas.FloatPat
import Verif.Model.Stats
import Mathlib.Tactic.Linarith
/- Facts about the float operations in terms of `scaled` (the exact value in smallest subnormals). -/
namespace Atsc
namespace FP
variable {mb eb : Nat}

theorem ofPat_mag (s : Bool) (k : Nat) : (ofPat s k : FP mb eb).mag.val = min k (infMag mb eb) := rfl
theorem ofPat_sign (s : Bool) (k : Nat) : (ofPat s k : FP mb eb).sign = s := rfl

@[simp] theorem ofPat_isNaN (s : Bool) (k : Nat) : (ofPat s k : FP mb eb).isNaN = false := by
  simp [isNaN, ofPat_mag]
@[simp] theorem ofRound_isNaN (s : Bool) (p q : Nat) : (ofRound s p q : FP mb eb).isNaN = false :=
  ofPat_isNaN _ _
@[simp] theorem zero_isNaN : (zero : FP mb eb).isNaN = false := ofPat_isNaN _ _
@[simp] theorem inf_isNaN (s : Bool) : (inf s : FP mb eb).isNaN = false := ofPat_isNaN _ _

theorem isFinite_not_nan {x : FP mb eb} (h : x.isFinite = true) : x.isNaN = false := by
  simp [isFinite, isNaN] at *; omega
theorem isFinite_not_inf {x : FP mb eb} (h : x.isFinite = true) : x.isInf = false := by
  simp [isFinite, isInf] at *; omega
theorem isFinite_iff {x : FP mb eb} : x.isFinite = true ↔ x.isNaN = false ∧ x.isInf = false := by
  simp [isFinite, isInf, isNaN]; omega

theorem ext_iff' {x y : FP mb eb} : x = y ↔ x.sign = y.sign ∧ x.mag.val = y.mag.val := by
  cases x; cases y; simp [Fin.ext_iff]

theorem scaled_natAbs (x : FP mb eb) : x.scaled.natAbs = x.absVal := by
  unfold scaled; split_ifs <;> simp

theorem absVal_ofPat {s : Bool} {k : Nat} (h : k ≤ infMag mb eb) :
    (ofPat s k : FP mb eb).absVal = magVal mb k := by
  simp [absVal, ofPat_mag, Nat.min_eq_left h]

@[simp] theorem scaled_zero : (zero : FP mb eb).scaled = 0 := by
  simp [scaled, zero, absVal, ofPat_mag]

theorem feq_iff {a b : FP mb eb} : a.feq b = true ↔ a.isNaN = false ∧ b.isNaN = false ∧ a.scaled = b.scaled := by
  simp [feq, and_assoc]
theorem lt_iff {a b : FP mb eb} : a.lt b = true ↔ a.isNaN = false ∧ b.isNaN = false ∧ a.scaled < b.scaled := by
  simp [lt, and_assoc]
theorem le_iff {a b : FP mb eb} : a.le b = true ↔ a.isNaN = false ∧ b.isNaN = false ∧ a.scaled ≤ b.scaled := by
  simp [le, and_assoc]

theorem feq_refl {a : FP mb eb} (h : a.isNaN = false) : a.feq a = true := by simp [feq_iff, h]
theorem feq_symm {a b : FP mb eb} (h : a.feq b = true) : b.feq a = true := by
  rw [feq_iff] at *; exact ⟨h.2.1, h.1, h.2.2.symm⟩
theorem feq_comm (a b : FP mb eb) : a.feq b = b.feq a := by
  rw [Bool.eq_iff_iff]; exact ⟨feq_symm, feq_symm⟩
theorem feq_trans {a b c : FP mb eb} (h : a.feq b = true) (h' : b.feq c = true) : a.feq c = true := by
  rw [feq_iff] at *; exact ⟨h.1, h'.2.1, h.2.2.trans h'.2.2⟩

/-- `==` on floats is equality of bits except for the two zeros. -/
theorem feq_iff_eq_or_zero {a b : FP mb eb} (ha : a.isNaN = false) (hb : b.isNaN = false) :
    a.feq b = true ↔ a = b ∨ (a.absVal = 0 ∧ b.absVal = 0) := by
  rw [feq_iff]
  simp only [ha, hb, true_and]
  constructor
  · intro h
    have hn : a.absVal = b.absVal := by rw [← scaled_natAbs, ← scaled_natAbs, h]
    by_cases hz : a.absVal = 0
    · exact Or.inr ⟨hz, hn ▸ hz⟩
    · left
      rw [ext_iff']
      refine ⟨?_, magVal_inj.1 hn⟩
      unfold scaled at h
      cases hs : a.sign <;> cases ht : b.sign <;> simp [hs, ht] at h ⊢ <;> omega
  · rintro (rfl | ⟨h1, h2⟩)
    · rfl
    · simp [scaled, h1, h2]

/-- Correct rounding is exact on representable values. -/
theorem ofRound_exact {s : Bool} {p q k : Nat} (hq : 0 < q) (_hk : k ≤ infMag mb eb)
    (hp : p = magVal mb k * q) : (ofRound s p q : FP mb eb) = ofPat s k := by
  unfold ofRound
  rw [hp, roundPat_exact mb k hq]

theorem ofRound_sign (s : Bool) (p q : Nat) : (ofRound s p q : FP mb eb).sign = s := rfl

theorem signed_natAbs (n : Int) (Q : Nat) :
    (if decide (n < 0) = true then -((n.natAbs * Q : Nat) : Int) else ((n.natAbs * Q : Nat) : Int)) = n * Q := by
  rw [Nat.cast_mul]
  by_cases h0 : n < 0
  · simp only [h0, decide_true, if_true]
    rw [show ((n.natAbs : Int)) = -n by omega]; ring
  · simp only [h0, decide_false]
    rw [show ((n.natAbs : Int)) = n by omega]; simp

theorem qpow_pos (mb eb : Nat) : 0 < 2 ^ qexp mb eb := Nat.two_pow_pos _

/-- Converting an integral float to the integer and back is exact (up to the sign of zero). -/
theorem ofInt_scaled {x : FP mb eb} (hx : x.isFinite = true) {n : Int}
    (hn : x.scaled = n * (2 ^ qexp mb eb : Nat)) :
    (ofInt n : FP mb eb).scaled = x.scaled ∧ (ofInt n : FP mb eb).mag = x.mag := by
  have hk : x.mag.val ≤ infMag mb eb := by simp [isFinite] at hx; omega
  have ha : x.absVal = n.natAbs * 2 ^ qexp mb eb := by
    rw [← scaled_natAbs, hn, Int.natAbs_mul]; simp
  have he : (ofInt n : FP mb eb) = ofPat (decide (n < 0)) x.mag.val := by
    unfold ofInt
    exact ofRound_exact Nat.one_pos hk (by rw [← ha]; simp [absVal])
  have hm : (ofInt n : FP mb eb).mag = x.mag := by
    rw [he]; ext; simp [ofPat_mag]; exact hk
  refine ⟨?_, hm⟩
  have habs : (ofInt n : FP mb eb).absVal = x.absVal := by simp [absVal, hm]
  have hs : (ofInt n : FP mb eb).sign = decide (n < 0) := by rw [he]; rfl
  have hpos : (0 : Int) < (2 ^ qexp mb eb : Nat) := by exact_mod_cast qpow_pos mb eb
  rw [hn]
  unfold scaled
  rw [hs, habs, ha]
  exact signed_natAbs n _

/-- Truncation of an integral float. -/
theorem truncInt_of_scaled {x : FP mb eb} {n : Int} (hn : x.scaled = n * (2 ^ qexp mb eb : Nat)) :
    x.truncInt = n := by
  have ha : x.absVal = n.natAbs * 2 ^ qexp mb eb := by
    rw [← scaled_natAbs, hn, Int.natAbs_mul]; simp
  have hpos : (0 : Int) < (2 ^ qexp mb eb : Nat) := by exact_mod_cast qpow_pos mb eb
  unfold truncInt
  rw [ha, Nat.mul_div_cancel _ (qpow_pos mb eb)]
  unfold scaled at hn
  rw [ha] at hn
  split_ifs at hn ⊢ with hs
  · rw [Nat.cast_mul] at hn
    have : (-(n.natAbs : Int)) * (2 ^ qexp mb eb : Nat) = n * (2 ^ qexp mb eb : Nat) := by
      rw [← hn]; ring
    exact Int.eq_of_mul_eq_mul_right (ne_of_gt hpos) this
  · rw [Nat.cast_mul] at hn
    exact Int.eq_of_mul_eq_mul_right (ne_of_gt hpos) hn

theorem toInt_of_scaled {x : FP mb eb} (hx : x.isNaN = false) {n lo hi : Int}
    (hn : x.scaled = n * (2 ^ qexp mb eb : Nat)) (h1 : lo ≤ n) (h2 : n ≤ hi) : x.toInt lo hi = n := by
  unfold toInt
  rw [hx, truncInt_of_scaled hn]
  simp; omega

/-- Every mantissa of at most `mb+1` bits, shifted, is representable. -/
theorem exists_pat_mul_pow (mb : Nat) {m s : Nat} (h : m ≤ 2 ^ (mb + 1)) : ∃ k, magVal mb k = m * 2 ^ s := by
  -- induction on the shift: double a representable value
  induction s with
  | zero =>
    rcases Nat.lt_or_ge m (2 ^ (mb + 1)) with h' | h'
    · exact ⟨m, by simp [magVal_small h']⟩
    · have hm : m = 2 ^ (mb + 1) := by omega
      refine ⟨1 * 2 ^ mb + 2 ^ mb, ?_⟩
      have hp : 0 < 2 ^ mb := Nat.two_pow_pos _
      rw [(magVal_shift (s := 1) (m := 2 ^ mb) (by omega) (by rw [pow_succ]; omega)).1, hm, pow_succ]
      rw [pow_succ]; simp
  | succ s ih =>
    obtain ⟨k, hk⟩ := ih
    have hp : 0 < 2 ^ mb := Nat.two_pow_pos _
    by_cases hk2 : k < 2 ^ mb
    · refine ⟨2 * k, ?_⟩
      rw [magVal_small (by rw [pow_succ]; omega)]
      rw [magVal_small (by rw [pow_succ]; omega)] at hk
      rw [hk, pow_succ]; ring
    · -- normal: next binade
      obtain ⟨t, ht⟩ : ∃ t, k / 2 ^ mb = t + 1 :=
        ⟨k / 2 ^ mb - 1, by have := Nat.div_pos (Nat.le_of_not_lt hk2) hp; omega⟩
      have hk3 := Nat.div_add_mod k (2 ^ mb)
      have hlt := Nat.mod_lt k hp
      generalize hr : k % 2 ^ mb = r at *
      rw [ht] at hk3
      have hkeq : k = t * 2 ^ mb + (2 ^ mb + r) := by rw [← hk3]; ring
      have hb : 2 ^ mb + r < 2 ^ (mb + 1) := by rw [pow_succ]; omega
      refine ⟨(t + 1) * 2 ^ mb + (2 ^ mb + r), ?_⟩
      rw [(magVal_shift (s := t + 1) (by omega) hb).1]
      rw [hkeq, (magVal_shift (s := t) (by omega) hb).1] at hk
      rw [pow_succ, ← mul_assoc, hk, pow_succ]
      ring

theorem magVal_infMag (mb : Nat) {eb : Nat} (h : 1 ≤ eb) : magVal mb (infMag mb eb) = 2 ^ mb * 2 ^ (2 ^ eb - 2) := by
  have hp : 0 < 2 ^ mb := Nat.two_pow_pos _
  have h2 : 2 ≤ 2 ^ eb := by
    calc 2 = 2 ^ 1 := rfl
      _ ≤ 2 ^ eb := Nat.pow_le_pow_right (by decide) h
  have : infMag mb eb = (2 ^ eb - 2) * 2 ^ mb + 2 ^ mb := by
    unfold infMag
    rw [show 2 ^ eb - 1 = (2 ^ eb - 2) + 1 by omega]; ring
  rw [this, (magVal_shift (s := 2 ^ eb - 2) (by omega) (by rw [pow_succ]; omega)).1]

/-- `ofInt` is exact for integers of at most `mb+1` bits (when the format's range allows). -/
theorem ofInt_exact {n : Int} (hn : n.natAbs ≤ 2 ^ (mb + 1))
    (hr : n.natAbs * 2 ^ qexp mb eb < magVal mb (infMag mb eb)) :
    (ofInt n : FP mb eb).scaled = n * (2 ^ qexp mb eb : Nat) ∧ (ofInt n : FP mb eb).isFinite = true := by
  obtain ⟨k, hk⟩ := exists_pat_mul_pow mb (m := n.natAbs) (s := qexp mb eb) hn
  have hki : k < infMag mb eb := magVal_lt_iff.1 (by rw [hk]; exact hr)
  have he : (ofInt n : FP mb eb) = ofPat (decide (n < 0)) k := by
    unfold ofInt
    exact ofRound_exact Nat.one_pos (by omega) (by rw [hk]; simp)
  rw [he]
  constructor
  · unfold scaled
    rw [absVal_ofPat (by omega), ofPat_sign, hk]
    exact signed_natAbs n _
  · simp [isFinite, ofPat_mag]; omega

end FP

theorem F64.lit_exact {n : Int} (hn : n.natAbs ≤ 2 ^ 53) :
    (F64.lit n).scaled = n * (2 ^ FP.qexp 52 11 : Nat) ∧ (F64.lit n).isFinite = true := by
  refine FP.ofInt_exact (mb := 52) (eb := 11) hn ?_
  rw [FP.magVal_infMag 52 (by decide)]
  calc n.natAbs * 2 ^ FP.qexp 52 11 ≤ 2 ^ 53 * 2 ^ FP.qexp 52 11 := Nat.mul_le_mul_right _ hn
    _ < _ := by rw [← pow_add, ← pow_add]; exact Nat.pow_lt_pow_right (by decide) (by decide)

end Atsc
