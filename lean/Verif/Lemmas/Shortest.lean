import Verif.Lemmas.Decimal
/- `ryuDigits` finds the shortest decimal. -/
namespace Atsc
open FP

/-- `decRound` is a rounding of a fraction. -/
theorem decRound_frac (m : Nat) (e : Int) : ∃ p q : Nat, 0 < q ∧ (∀ neg, decRound neg m e = ofRound neg p q) ∧
    (p : ℚ) / q = (m : ℚ) * (10 : ℚ) ^ e * 2 ^ qexp 52 11 := by
  unfold decRound
  by_cases h : 0 ≤ e
  · refine ⟨m * 10 ^ e.toNat * 2 ^ qexp 52 11, 1, Nat.one_pos, fun neg => if_pos h, ?_⟩
    conv_rhs => rw [← Int.toNat_of_nonneg h, zpow_natCast]
    generalize qexp 52 11 = k at *
    push_cast
    rw [div_one]
  · refine ⟨m * 2 ^ qexp 52 11, 10 ^ (-e).toNat, Nat.pow_pos (by decide), fun neg => if_neg h, ?_⟩
    have he : e = -((-e).toNat : Int) := by omega
    conv_rhs => rw [he, zpow_neg, zpow_natCast]
    generalize qexp 52 11 = k at *
    push_cast
    rw [div_eq_mul_inv]; ring

theorem frac_le {p q p' q' : Nat} (hq : 0 < q) (hq' : 0 < q') : (p : ℚ) / q ≤ (p' : ℚ) / q' ↔ p * q' ≤ p' * q := by
  have h1 : (0 : ℚ) < q := by exact_mod_cast hq
  have h2 : (0 : ℚ) < q' := by exact_mod_cast hq'
  rw [div_le_div_iff₀ h1 h2]
  exact_mod_cast Iff.rfl

theorem ofRound_mag (s : Bool) (p q : Nat) : (ofRound s p q : F64).mag.val = min (roundPat 52 p q) (infMag 52 11) := rfl

theorem ofRound_mono {s : Bool} {p q p' q' : Nat} (hq : 0 < q) (hq' : 0 < q') (h : (p : ℚ) / q ≤ (p' : ℚ) / q') :
    (ofRound s p q : F64).mag.val ≤ (ofRound s p' q' : F64).mag.val := by
  have := roundPat_mono (mb := 52) hq hq' ((frac_le hq hq').1 h)
  rw [ofRound_mag, ofRound_mag]
  exact min_le_min_right _ this

theorem self_round {x : F64} (h : x.isNaN = false) : x = ofRound x.sign x.absVal 1 := by
  have hx : x.mag.val ≤ infMag 52 11 := not_lt.1 (of_decide_eq_false h)
  rw [ext_iff']
  refine ⟨(ofRound_sign _ _ _).symm, ?_⟩
  rw [ofRound_mag, absVal, roundPat_one_magVal, Nat.min_eq_left hx]

/-- The magnitude as a number. -/
def absQ (x : F64) : ℚ := (x.absVal : ℚ) / 2 ^ qexp 52 11

theorem absQ_nonneg (x : F64) : 0 ≤ absQ x := div_nonneg (Nat.cast_nonneg _) (qpow_posQ 52 11).le

theorem absQ_val (x : F64) : absQ x = |x.val| := (abs_val (by decide) x).symm

theorem absQ_pos {x : F64} (h : x.absVal ≠ 0) : 0 < absQ x := by
  have : (0 : ℚ) < x.absVal := by exact_mod_cast Nat.pos_of_ne_zero h
  exact div_pos this (qpow_posQ 52 11)

theorem absQ_scaled (x : F64) : (x.absVal : ℚ) / (1 : Nat) = absQ x * 2 ^ qexp 52 11 := by
  unfold absQ
  rw [Nat.cast_one, div_one, div_mul_cancel₀ _ (qpow_posQ 52 11).ne']

/-- Between a notation that reads as `x` and `x` itself, everything reads as `x`. -/
theorem reads_between {x : F64} (hx : x.isNaN = false) {m m' : Nat} {e e' : Int} (h : decRound x.sign m e = x)
    (hb : ((m : ℚ) * (10 : ℚ) ^ e ≤ (m' : ℚ) * (10 : ℚ) ^ e' ∧ (m' : ℚ) * (10 : ℚ) ^ e' ≤ absQ x) ∨
      (absQ x ≤ (m' : ℚ) * (10 : ℚ) ^ e' ∧ (m' : ℚ) * (10 : ℚ) ^ e' ≤ (m : ℚ) * (10 : ℚ) ^ e)) : decRound x.sign m' e' = x := by
  obtain ⟨p, q, hq, hr, hv⟩ := decRound_frac m e
  obtain ⟨p', q', hq', hr', hv'⟩ := decRound_frac m' e'
  have hQ := qpow_posQ 52 11
  have sx := self_round hx
  have hs := absQ_scaled x
  rw [hr] at h
  rw [hr', ext_iff']
  refine ⟨ofRound_sign _ _ _, ?_⟩
  generalize (2 : ℚ) ^ qexp 52 11 = Q at *
  rcases hb with ⟨b1, b2⟩ | ⟨b1, b2⟩
  · have h1 := ofRound_mono (s := x.sign) hq hq' (by rw [hv, hv']; exact mul_le_mul_of_nonneg_right b1 hQ.le)
    have h2 := ofRound_mono (s := x.sign) hq' Nat.one_pos (p' := x.absVal) (by rw [hv', hs]; exact mul_le_mul_of_nonneg_right b2 hQ.le)
    rw [h] at h1
    rw [← sx] at h2
    omega
  · have h1 := ofRound_mono (s := x.sign) hq' hq (by rw [hv, hv']; exact mul_le_mul_of_nonneg_right b2 hQ.le)
    have h2 := ofRound_mono (s := x.sign) Nat.one_pos hq' (p := x.absVal) (by rw [hv', hs]; exact mul_le_mul_of_nonneg_right b1 hQ.le)
    rw [h] at h1
    rw [← sx] at h2
    omega

/-- What `decFloor` and `decUp` compare. -/
theorem dec_frac (a : Nat) (k : Int) : ∃ n d : Nat, 0 < d ∧ decFloor a k = n / d ∧
    decUp a k = (if 2 * n = (2 * (n / d) + 1) * d then decide (n / d % 2 = 1) else decide ((2 * (n / d) + 1) * d < 2 * n)) ∧
    (n : ℚ) / d * (10 : ℚ) ^ k = (a : ℚ) / 2 ^ qexp 52 11 := by
  have hQ := qpow_posQ 52 11
  unfold decFloor decUp
  by_cases h : 0 ≤ k
  · refine ⟨a, 2 ^ qexp 52 11 * 10 ^ k.toNat, Nat.mul_pos (Nat.two_pow_pos _) (Nat.pow_pos (by decide)), by rw [if_pos h], by rw [if_pos h, if_pos h], ?_⟩
    conv_lhs => rw [← Int.toNat_of_nonneg h, zpow_natCast]
    generalize k.toNat = j
    have h10 : (10 : ℚ) ^ j ≠ 0 := pow_ne_zero _ (by norm_num)
    generalize qexp 52 11 = i at *
    push_cast
    rw [Int.toNat_natCast]
    field_simp
  · refine ⟨a * 10 ^ (-k).toNat, 2 ^ qexp 52 11, Nat.two_pow_pos _, by rw [if_neg h], by rw [if_neg h, if_neg h], ?_⟩
    have he : k = -((-k).toNat : Int) := by omega
    conv_lhs => rw [he, zpow_neg, zpow_natCast]
    generalize (-k).toNat = j
    have h10 : (10 : ℚ) ^ j ≠ 0 := pow_ne_zero _ (by norm_num)
    generalize qexp 52 11 = i at *
    push_cast
    rw [neg_neg, Int.toNat_natCast]
    field_simp

theorem ten_pos (k : Int) : (0 : ℚ) < (10 : ℚ) ^ k := zpow_pos (by norm_num) k

theorem floor_le (a : Nat) (k : Int) : (decFloor a k : ℚ) * (10 : ℚ) ^ k ≤ (a : ℚ) / 2 ^ qexp 52 11 ∧
    (a : ℚ) / 2 ^ qexp 52 11 < ((decFloor a k + 1 : Nat) : ℚ) * (10 : ℚ) ^ k := by
  obtain ⟨n, d, hd, hf, -, hv⟩ := dec_frac a k
  have hd' : (0 : ℚ) < d := by exact_mod_cast hd
  rw [hf, ← hv]
  constructor
  · refine mul_le_mul_of_nonneg_right ?_ (ten_pos k).le
    rw [le_div_iff₀ hd']
    exact_mod_cast Nat.div_mul_le_self n d
  · refine mul_lt_mul_of_pos_right ?_ (ten_pos k)
    rw [div_lt_iff₀ hd']
    have := Nat.lt_mul_of_div_lt (Nat.lt_succ_self (n / d)) hd
    exact_mod_cast this

/-- The first of `decNear` is nearest; of two equally near ones it is the even one. -/
theorem up_spec (a : Nat) (k : Int) :
    (decUp a k = true → ((decFloor a k + 1 : Nat) : ℚ) * (10 : ℚ) ^ k - (a : ℚ) / 2 ^ qexp 52 11 < (a : ℚ) / 2 ^ qexp 52 11 - (decFloor a k : ℚ) * (10 : ℚ) ^ k ∨
      (((decFloor a k + 1 : Nat) : ℚ) * (10 : ℚ) ^ k - (a : ℚ) / 2 ^ qexp 52 11 = (a : ℚ) / 2 ^ qexp 52 11 - (decFloor a k : ℚ) * (10 : ℚ) ^ k ∧ (decFloor a k + 1) % 2 = 0)) ∧
    (decUp a k = false → (a : ℚ) / 2 ^ qexp 52 11 - (decFloor a k : ℚ) * (10 : ℚ) ^ k < ((decFloor a k + 1 : Nat) : ℚ) * (10 : ℚ) ^ k - (a : ℚ) / 2 ^ qexp 52 11 ∨
      ((a : ℚ) / 2 ^ qexp 52 11 - (decFloor a k : ℚ) * (10 : ℚ) ^ k = ((decFloor a k + 1 : Nat) : ℚ) * (10 : ℚ) ^ k - (a : ℚ) / 2 ^ qexp 52 11 ∧ decFloor a k % 2 = 0)) := by
  obtain ⟨n, d, hd, hf, hu, hv⟩ := dec_frac a k
  have hd' : (0 : ℚ) < d := by exact_mod_cast hd
  have ht := ten_pos k
  rw [hf, hu, ← hv]
  generalize n / d = f
  generalize (10 : ℚ) ^ k = T at *
  -- compare 2n with (2f+1)d
  have hn : (n : ℚ) = (n : ℚ) / d * d := (div_mul_cancel₀ _ hd'.ne').symm
  have cmp : ∀ (P : ℚ), (2 * n : ℚ) - (2 * f + 1) * d = P → 2 * ((n : ℚ) / d) - (2 * f + 1) = P / d := by
    intro P hP
    rw [← hP, sub_div, mul_div_assoc, mul_div_assoc, div_self hd'.ne', mul_one]
  generalize hr : (n : ℚ) / d = r at *
  push_cast
  by_cases h1 : 2 * n = (2 * f + 1) * d
  · rw [if_pos h1]
    have e0 : (2 * n : ℚ) - (2 * f + 1) * d = 0 := by
      have : ((2 * n : Nat) : ℚ) = (((2 * f + 1) * d : Nat) : ℚ) := by rw [h1]
      push_cast at this; rw [this, sub_self]
    have e1 := cmp 0 e0
    rw [zero_div] at e1
    have e2 : r = f + 1 / 2 := by linarith
    subst e2
    constructor
    · intro hodd
      have := of_decide_eq_true hodd
      exact .inr ⟨by ring, by omega⟩
    · intro hodd
      have := of_decide_eq_false hodd
      exact .inr ⟨by ring, by omega⟩
  · rw [if_neg h1]
    constructor
    · intro h2
      have h2 := of_decide_eq_true h2
      have h3 : ((2 * f + 1) * d : ℚ) < 2 * n := by exact_mod_cast h2
      have h4 := cmp _ rfl
      have h5 : 0 < 2 * r - (2 * f + 1) := by rw [h4]; exact div_pos (by linarith) hd'
      left
      nlinarith
    · intro h2
      have h2 := of_decide_eq_false h2
      have h3 : (2 * n : ℚ) < (2 * f + 1) * d := by
        have : 2 * n < (2 * f + 1) * d := by omega
        exact_mod_cast this
      have h4 := cmp _ rfl
      have h5 : 2 * r - (2 * f + 1) < 0 := by rw [h4]; exact div_neg_of_neg_of_pos (by linarith) hd'
      left
      nlinarith

/-- What the search finds at one exponent. -/
theorem near_spec {x : F64} (hx : x.isNaN = false) {k : Int} {m : Nat} (h : (decNear x.absVal k).find? (fun m => decRound x.sign m k = x) = some m) :
    decRound x.sign m k = x ∧ ∀ m', decRound x.sign m' k = x → |(m : ℚ) * (10 : ℚ) ^ k - absQ x| < |(m' : ℚ) * (10 : ℚ) ^ k - absQ x| ∨
      (|(m : ℚ) * (10 : ℚ) ^ k - absQ x| = |(m' : ℚ) * (10 : ℚ) ^ k - absQ x| ∧ (m' = m ∨ m % 2 = 0)) := by
  have hm : decRound x.sign m k = x := by simpa using List.find?_some h
  refine ⟨hm, fun m' h' => ?_⟩
  obtain ⟨f1, f2⟩ := floor_le x.absVal k
  obtain ⟨u1, u2⟩ := up_spec x.absVal k
  change _ ≤ absQ x at f1
  change absQ x < _ at f2
  have ht := ten_pos k
  change _ → ((decFloor x.absVal k + 1 : Nat) : ℚ) * (10 : ℚ) ^ k - absQ x < absQ x - _ ∨ (_ - absQ x = absQ x - _ ∧ _) at u1
  change _ → absQ x - _ < _ - absQ x ∨ (absQ x - _ = _ - absQ x ∧ _) at u2
  have hbet := @reads_between x hx
  unfold decNear at h
  generalize decFloor x.absVal k = f at *
  generalize absQ x = v at *
  have low : ∀ j : Nat, j ≤ f → |(j : ℚ) * (10 : ℚ) ^ k - v| = v - (j : ℚ) * (10 : ℚ) ^ k ∧ (j : ℚ) * (10 : ℚ) ^ k ≤ (f : ℚ) * (10 : ℚ) ^ k := by
    intro j hj
    have : (j : ℚ) * (10 : ℚ) ^ k ≤ (f : ℚ) * (10 : ℚ) ^ k := mul_le_mul_of_nonneg_right (by exact_mod_cast hj) ht.le
    exact ⟨by rw [abs_of_nonpos (by linarith)]; ring, this⟩
  have high : ∀ j : Nat, f + 1 ≤ j → |(j : ℚ) * (10 : ℚ) ^ k - v| = (j : ℚ) * (10 : ℚ) ^ k - v ∧ ((f + 1 : Nat) : ℚ) * (10 : ℚ) ^ k ≤ (j : ℚ) * (10 : ℚ) ^ k := by
    intro j hj
    have : ((f + 1 : Nat) : ℚ) * (10 : ℚ) ^ k ≤ (j : ℚ) * (10 : ℚ) ^ k := mul_le_mul_of_nonneg_right (by exact_mod_cast hj) ht.le
    exact ⟨by rw [abs_of_nonneg (by linarith)], this⟩
  have lowlt : ∀ j : Nat, j < f → (j : ℚ) * (10 : ℚ) ^ k < (f : ℚ) * (10 : ℚ) ^ k := fun j hj => mul_lt_mul_of_pos_right (by exact_mod_cast hj) ht
  have highlt : ∀ j : Nat, f + 1 < j → ((f + 1 : Nat) : ℚ) * (10 : ℚ) ^ k < (j : ℚ) * (10 : ℚ) ^ k := fun j hj => mul_lt_mul_of_pos_right (by exact_mod_cast hj) ht
  have lf := low f (le_refl _)
  have hf := high (f + 1) (le_refl _)
  -- reading back moves towards the neighbours
  have toF : ∀ j : Nat, j ≤ f → decRound x.sign j k = x → decRound x.sign f k = x := fun j hj hr => hbet hr (.inl ⟨(low j hj).2, f1⟩)
  have toF1 : ∀ j : Nat, f + 1 ≤ j → decRound x.sign j k = x → decRound x.sign (f + 1) k = x := fun j hj hr => hbet hr (.inr ⟨f2.le, (high j hj).2⟩)
  cases hu : decUp x.absVal k with
  | true =>
    rw [hu, if_pos rfl] at h
    have hd := u1 hu
    by_cases h1 : decRound x.sign (f + 1) k = x
    · rw [List.find?_cons_of_pos (by simpa using h1)] at h
      have hmf := (Option.some.inj h).symm
      subst hmf
      rw [hf.1]
      rcases Nat.lt_or_ge f m' with hj | hj
      · rw [(high m' hj).1]
        rcases Nat.lt_or_ge (f + 1) m' with hj' | hj'
        · left; linarith [highlt m' hj']
        · have : m' = f + 1 := by omega
          subst this
          exact .inr ⟨rfl, .inl rfl⟩
      · rw [(low m' hj).1]
        rcases hd with hd | ⟨hd, he⟩
        · left; linarith [(low m' hj).2]
        · rcases Nat.lt_or_ge m' f with hj' | hj'
          · left; linarith [lowlt m' hj']
          · have : m' = f := by omega
            subst this
            exact .inr ⟨by linarith, .inr he⟩
    · rw [List.find?_cons_of_neg (by simpa using h1)] at h
      have hmf : m = f := by
        by_cases h2 : decRound x.sign f k = x
        · rw [List.find?_cons_of_pos (by simpa using h2)] at h
          exact (Option.some.inj h).symm
        · rw [List.find?_cons_of_neg (by simpa using h2)] at h; cases h
      subst hmf
      rw [lf.1]
      rcases Nat.lt_or_ge m m' with hj | hj
      · exact absurd (toF1 m' hj h') h1
      · rw [(low m' hj).1]
        rcases Nat.lt_or_ge m' m with hj' | hj'
        · left; linarith [lowlt m' hj']
        · have : m' = m := by omega
          subst this
          exact .inr ⟨rfl, .inl rfl⟩
  | false =>
    rw [hu, if_neg (by decide)] at h
    have hd := u2 hu
    by_cases h1 : decRound x.sign f k = x
    · rw [List.find?_cons_of_pos (by simpa using h1)] at h
      have hmf := (Option.some.inj h).symm
      subst hmf
      rw [lf.1]
      rcases Nat.lt_or_ge m m' with hj | hj
      · rw [(high m' hj).1]
        rcases hd with hd | ⟨hd, he⟩
        · left; linarith [(high m' hj).2]
        · rcases Nat.lt_or_ge (m + 1) m' with hj' | hj'
          · left; linarith [highlt m' hj']
          · have : m' = m + 1 := by omega
            subst this
            exact .inr ⟨by linarith, .inr he⟩
      · rw [(low m' hj).1]
        rcases Nat.lt_or_ge m' m with hj' | hj'
        · left; linarith [lowlt m' hj']
        · have : m' = m := by omega
          subst this
          exact .inr ⟨rfl, .inl rfl⟩
    · rw [List.find?_cons_of_neg (by simpa using h1)] at h
      have hmf : m = f + 1 := by
        by_cases h2 : decRound x.sign (f + 1) k = x
        · rw [List.find?_cons_of_pos (by simpa using h2)] at h
          exact (Option.some.inj h).symm
        · rw [List.find?_cons_of_neg (by simpa using h2)] at h; cases h
      subst hmf
      rw [hf.1]
      rcases Nat.lt_or_ge f m' with hj | hj
      · rw [(high m' hj).1]
        rcases Nat.lt_or_ge (f + 1) m' with hj' | hj'
        · left; linarith [highlt m' hj']
        · have : m' = f + 1 := by omega
          subst this
          exact .inr ⟨rfl, .inl rfl⟩
      · exact absurd (toF m' hj h') h1

/-- Nothing is found at an exponent only if no multiple reads as `x`. -/
theorem near_none {x : F64} (hx : x.isNaN = false) {k : Int} (h : (decNear x.absVal k).find? (fun m => decRound x.sign m k = x) = none) (m' : Nat) :
    decRound x.sign m' k ≠ x := by
  intro h'
  obtain ⟨f1, f2⟩ := floor_le x.absVal k
  change _ ≤ absQ x at f1
  change absQ x < _ at f2
  have ht := ten_pos k
  have hall := List.find?_eq_none.1 h
  have hmem : decFloor x.absVal k ∈ decNear x.absVal k ∧ decFloor x.absVal k + 1 ∈ decNear x.absVal k := by
    unfold decNear; split <;> simp
  rcases Nat.lt_or_ge (decFloor x.absVal k) m' with hj | hj
  · have := reads_between hx h' (m' := decFloor x.absVal k + 1) (e' := k) (.inr ⟨f2.le, mul_le_mul_of_nonneg_right (by exact_mod_cast hj) ht.le⟩)
    exact hall _ hmem.2 (by simpa using this)
  · have := reads_between hx h' (m' := decFloor x.absVal k) (e' := k) (.inl ⟨mul_le_mul_of_nonneg_right (by exact_mod_cast hj) ht.le, f1⟩)
    exact hall _ hmem.1 (by simpa using this)

theorem roundPat_close {mb p q k : Nat} (hq : 0 < q) (h : 2 * (((magVal mb k * q : Nat) : Int) - (p : Int)).natAbs < q) : roundPat mb p q = k := by
  have h1 := roundPat_nearest mb p hq k
  have h2 : (((magVal mb (roundPat mb p q) * q : Nat) : Int) - ((magVal mb k * q : Nat) : Int)).natAbs < q := by omega
  rcases Nat.lt_trichotomy (magVal mb (roundPat mb p q)) (magVal mb k) with h3 | h3 | h3
  · have := Nat.mul_le_mul_right q (Nat.succ_le_of_lt h3)
    rw [Nat.succ_mul] at this
    omega
  · exact magVal_inj.1 h3
  · have := Nat.mul_le_mul_right q (Nat.succ_le_of_lt h3)
    rw [Nat.succ_mul] at this
    omega

/-- With 324 decimals every double can be written. -/
theorem floor_reads {x : F64} (hx : x.isFinite = true) : decRound x.sign (decFloor x.absVal (-324)) (-324) = x := by
  have hlt : x.mag.val < infMag 52 11 := of_decide_eq_true hx
  have hbig : 2 * 2 ^ qexp 52 11 < 10 ^ 324 := by decide +kernel
  unfold decRound decFloor
  rw [if_neg (by decide), if_neg (by decide)]
  have e : (- (-324 : Int)).toNat = 324 := rfl
  rw [e, ext_iff']
  refine ⟨ofRound_sign _ _ _, ?_⟩
  rw [ofRound_mag]
  have hq : (0 : Nat) < 10 ^ 324 := Nat.pow_pos (by decide)
  rw [roundPat_close (k := x.mag.val) hq, Nat.min_eq_left hlt.le]
  rw [← absVal.eq_def]
  generalize 10 ^ 324 = T at *
  have hQ : 0 < 2 ^ qexp 52 11 := Nat.two_pow_pos _
  generalize 2 ^ qexp 52 11 = Q at *
  have h1 := Nat.div_mul_le_self (x.absVal * T) Q
  have h2 := Nat.lt_mul_of_div_lt (Nat.lt_succ_self (x.absVal * T / Q)) hQ
  rw [Nat.succ_mul] at h2
  generalize x.absVal * T = A at *
  generalize A / Q * Q = B at *
  omega

theorem reads_ne_zero {x : F64} (hx : x.absVal ≠ 0) {m : Nat} {e : Int} (h : decRound x.sign m e = x) : m ≠ 0 := by
  rintro rfl
  obtain ⟨p, q, hq, hr, hv⟩ := decRound_frac 0 e
  rw [Nat.cast_zero, zero_mul, zero_mul] at hv
  have hp : p = 0 := by
    have hq' : (q : ℚ) ≠ 0 := by exact_mod_cast hq.ne'
    rcases div_eq_zero_iff.1 hv with h | h
    · exact_mod_cast h
    · exact absurd h hq'
  subst hp
  have h0 : roundPat 52 0 q = 0 := by
    have := roundPat_exact 52 0 hq
    rw [magVal_eq_zero.2 rfl, Nat.zero_mul] at this; exact this
  apply hx
  have : x.mag.val = 0 := by
    rw [← h, hr, ofRound_mag, h0]; exact Nat.zero_min _
  show magVal 52 x.mag.val = 0
  rw [this]; exact magVal_eq_zero.2 rfl

/-- From `10^309` on everything is infinite. -/
theorem reads_exp_le {x : F64} (hf : x.isFinite = true) (hx : x.absVal ≠ 0) {m : Nat} {e : Int} (h : decRound x.sign m e = x) : e ≤ 308 := by
  by_contra hc
  have hn := decRound_nearest x.sign m e
  rw [h] at hn
  have hm := reads_ne_zero hx h
  have h1 : (1 : ℚ) ≤ m := by exact_mod_cast Nat.one_le_iff_ne_zero.2 hm
  have h2 : (10 : ℚ) ^ (309 : Int) ≤ (10 : ℚ) ^ e := zpow_le_zpow_right₀ (by norm_num) (by omega)
  have h3 : (2 : ℚ) ^ 1024 ≤ (10 : ℚ) ^ (309 : Int) := by
    have : (2 ^ 1024 : Nat) ≤ 10 ^ 309 := by decide +kernel
    exact_mod_cast this
  have h4 : (2 : ℚ) ^ 1024 - 2 ^ 970 ≤ (m : ℚ) * (10 : ℚ) ^ e := by
    have : (0 : ℚ) ≤ 2 ^ 970 := pow_nonneg (by norm_num) _
    generalize (2 : ℚ) ^ 970 = b at *
    generalize (2 : ℚ) ^ 1024 = c at *
    have h5 := ten_pos e
    generalize (10 : ℚ) ^ e = t at *
    generalize (10 : ℚ) ^ (309 : Int) = u at *
    nlinarith
  obtain ⟨-, hn⟩ := hn
  rw [if_neg (not_lt.2 h4)] at hn
  rw [isFinite_not_inf hf] at hn; cases hn

/-- **The search.** For a finite double other than zero, `ryuDigits` is the multiple of a power of ten that reads as the double, with the largest possible power of
ten; among these the nearest; of two equally near ones the even one. -/
theorem ryuDigits_spec {x : F64} (hf : x.isFinite = true) (hx : x.absVal ≠ 0) :
    decRound x.sign (ryuDigits x).1 (ryuDigits x).2 = x ∧
    (∀ m' k', decRound x.sign m' k' = x → k' ≤ (ryuDigits x).2) ∧
    ∀ m', decRound x.sign m' (ryuDigits x).2 = x →
      |((ryuDigits x).1 : ℚ) * (10 : ℚ) ^ (ryuDigits x).2 - absQ x| < |(m' : ℚ) * (10 : ℚ) ^ (ryuDigits x).2 - absQ x| ∨
      (|((ryuDigits x).1 : ℚ) * (10 : ℚ) ^ (ryuDigits x).2 - absQ x| = |(m' : ℚ) * (10 : ℚ) ^ (ryuDigits x).2 - absQ x| ∧
        (m' = (ryuDigits x).1 ∨ (ryuDigits x).1 % 2 = 0)) := by
  have hn := isFinite_not_nan hf
  have key : ∀ (l : List Nat) (g : Nat → Option (Nat × Int)), l.findSome? g ≠ none → ∃ pre i post r, l = pre ++ i :: post ∧ g i = some r ∧ l.findSome? g = some r ∧
      ∀ j ∈ pre, g j = none := by
    intro l g hne
    induction l with
    | nil => exact absurd rfl hne
    | cons a l ih =>
      cases ha : g a with
      | some r => exact ⟨[], a, l, r, rfl, ha, by rw [List.findSome?_cons, ha], by simp⟩
      | none =>
        rw [List.findSome?_cons, ha] at hne
        obtain ⟨pre, i, post, r, e, h1, h2, h3⟩ := ih hne
        refine ⟨a :: pre, i, post, r, by rw [e]; rfl, h1, by rw [List.findSome?_cons, ha]; exact h2, ?_⟩
        intro j hj
        rcases List.mem_cons.1 hj with rfl | hj
        · exact ha
        · exact h3 j hj
  generalize hg : (fun i : Nat => ryuAt x (308 - (i : Int))) = g
  have hdef : ryuDigits x = ((List.range 633).findSome? g).getD (0, 0) := by unfold ryuDigits; rw [hg]
  have hne : (List.range 633).findSome? g ≠ none := by
    intro hc
    have := List.findSome?_eq_none_iff.1 hc 632 (List.mem_range.2 (by norm_num))
    rw [← hg] at this
    dsimp only at this
    rw [ryuAt, Option.map_eq_none_iff] at this
    exact near_none hn this _ (floor_reads hf)
  obtain ⟨pre, i, post, r, e, h1, h2, h3⟩ := key _ _ hne
  rw [hdef, h2, Option.getD_some]
  rw [← hg] at h1
  dsimp only at h1
  rw [ryuAt, Option.map_eq_some_iff] at h1
  obtain ⟨m, hm, hr⟩ := h1
  rw [← hr]
  dsimp only
  obtain ⟨n1, n2⟩ := near_spec hn hm
  refine ⟨n1, fun m' k' hk => ?_, n2⟩
  by_contra hc
  have hk308 := reads_exp_le hf hx hk
  -- the exponent k' was tried before
  have hi : pre.length = i := by
    have h4 : (List.range 633)[pre.length]? = some i := by rw [e]; simp
    obtain ⟨h5, h6⟩ := List.getElem?_eq_some_iff.1 h4
    rw [List.getElem_range] at h6; exact h6
  have hmem : (308 - k').toNat ∈ pre := by
    have hlt : (308 - k').toNat < pre.length := by omega
    have h7 : pre[(308 - k').toNat]? = (List.range 633)[(308 - k').toNat]? := by rw [e, List.getElem?_append_left hlt]
    rw [List.getElem?_eq_getElem hlt] at h7
    have h8 := (List.getElem?_eq_some_iff.1 h7.symm)
    obtain ⟨h9, h10⟩ := h8
    rw [List.getElem_range] at h10
    have := List.getElem_mem hlt
    rw [← h10] at this; exact this
  have h11 := h3 _ hmem
  rw [← hg] at h11
  dsimp only at h11
  rw [ryuAt, Option.map_eq_none_iff] at h11
  have ek : (308 : Int) - ((308 - k').toNat : Int) = k' := by omega
  rw [ek] at h11
  exact near_none hn h11 m' hk

end Atsc
