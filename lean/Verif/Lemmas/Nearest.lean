import Verif.Lemmas.FloatErr
import Verif.Spec.Decimal
/- The rounding of the float model is the nearest double of the specification, and there is only one. -/
namespace Atsc
open FP

theorem val_pat (x : F64) : x.val = signedQ x.sign ((magVal 52 x.mag.val : ℚ) / 2 ^ qexp 52 11) := by
  rw [val_eq (by decide)]
  unfold scaled absVal signedQ
  cases x.sign
  · simp
  · simp only [if_true]; push_cast; ring

/-- Nearest pattern, with ties. -/
theorem roundPat_tie {mb p q : Nat} (hq : 0 < q) (j : Nat) :
    |(magVal mb (roundPat mb p q) : ℚ) - (p : ℚ) / q| < |(magVal mb j : ℚ) - (p : ℚ) / q| ∨
      (|(magVal mb (roundPat mb p q) : ℚ) - (p : ℚ) / q| = |(magVal mb j : ℚ) - (p : ℚ) / q| ∧ (j = roundPat mb p q ∨ roundPat mb p q % 2 = 0)) := by
  have hq' : (0 : ℚ) < q := by exact_mod_cast hq
  have key : ∀ k, |(magVal mb k : ℚ) - (p : ℚ) / q| = ((((magVal mb k * q : Nat) : Int) - (p : Int)).natAbs : ℚ) / q := by
    intro k
    have e : (magVal mb k : ℚ) - (p : ℚ) / q = ((magVal mb k : ℚ) * q - p) / q := by rw [sub_div, mul_div_assoc, div_self hq'.ne', mul_one]
    rw [e, abs_div, abs_of_pos hq', Nat.cast_natAbs]
    push_cast
    rfl
  have hn := roundPat_nearest mb p hq j
  rw [key, key]
  rcases Nat.lt_or_ge (((magVal mb (roundPat mb p q) * q : Nat) : Int) - (p : Int)).natAbs (((magVal mb j * q : Nat) : Int) - (p : Int)).natAbs with h | h
  · left
    exact (div_lt_div_iff_of_pos_right hq').2 (by exact_mod_cast h)
  · right
    have he := Nat.le_antisymm hn h
    refine ⟨by rw [he], ?_⟩
    by_cases hj : j = roundPat mb p q
    · exact .inl hj
    right
    generalize hk : roundPat mb p q = k at *
    have hne : magVal mb j * q ≠ magVal mb k * q := fun e => hj (magVal_inj.1 (Nat.eq_of_mul_eq_mul_right hq e))
    have h2 : magVal mb k * q + magVal mb j * q = 2 * p := by omega
    -- the two are neighbours
    have adj : ∀ a b : Nat, a < b → magVal mb a * q + magVal mb b * q = 2 * p → (a = k ∨ b = k) → b = a + 1 := by
      intro a b hab hs hor
      by_contra hc
      have h3 := roundPat_nearest mb p hq (a + 1)
      rw [hk] at h3
      have h4 : magVal mb a * q < magVal mb (a + 1) * q := Nat.mul_lt_mul_of_pos_right (magVal_lt_iff.2 (by omega)) hq
      have h5 : magVal mb (a + 1) * q < magVal mb b * q := Nat.mul_lt_mul_of_pos_right (magVal_lt_iff.2 (by omega)) hq
      rcases hor with rfl | rfl <;> omega
    have tie : ∀ f : Nat, magVal mb f * q + magVal mb (f + 1) * q = 2 * p → k % 2 = 0 := by
      intro f hf
      have h4 : magVal mb f * q < magVal mb (f + 1) * q := Nat.mul_lt_mul_of_pos_right (magVal_lt_iff.2 (by omega)) hq
      have hfl : floorPat mb (p / q) = f := by
        refine floorPat_unique ((Nat.le_div_iff_mul_le hq).2 (by omega)) ((Nat.div_lt_iff_lt_mul hq).2 (by omega))
      have := roundPat_tie_even hq hfl (by rw [Nat.add_mul]; omega)
      rw [hk] at this; exact this
    rcases Nat.lt_or_gt_of_ne hj with hl | hl
    · have e := adj j k hl (by omega) (.inr rfl)
      rw [e] at h2
      exact tie j (by rw [← e] at h2 ⊢; omega)
    · have e := adj k j hl (by omega) (.inl rfl)
      exact tie k (by rw [← e]; omega)

/-- The pattern below infinity and infinity, in smallest subnormals. -/
theorem top_vals : magVal 52 (infMag 52 11) = 2 ^ 2098 ∧ magVal 52 (infMag 52 11 - 1) = 2 ^ 2098 - 2 ^ 2045 ∧ (infMag 52 11 - 1) % 2 = 1 ∧ 0 < infMag 52 11 := by
  decide +kernel

theorem top_bound {p q : Nat} (hq : 0 < q) : roundPat 52 p q < infMag 52 11 ↔ 2 * p < (magVal 52 (infMag 52 11 - 1) + magVal 52 (infMag 52 11)) * q := by
  obtain ⟨-, -, t3, t4⟩ := top_vals
  have hlt : magVal 52 (infMag 52 11 - 1) * q < magVal 52 (infMag 52 11) * q := Nat.mul_lt_mul_of_pos_right (magVal_lt_iff.2 (by omega)) hq
  rw [Nat.add_mul]
  constructor
  · intro h
    by_contra hc
    have h1 := roundPat_nearest 52 p hq (infMag 52 11)
    have h2 : magVal 52 (roundPat 52 p q) * q ≤ magVal 52 (infMag 52 11 - 1) * q := Nat.mul_le_mul_right _ (magVal_le_iff.2 (by omega))
    rcases Nat.lt_or_ge p (magVal 52 (infMag 52 11) * q) with hp | hp
    · have e : magVal 52 (roundPat 52 p q) * q = magVal 52 (infMag 52 11 - 1) * q := by omega
      have ek := magVal_inj.1 (Nat.eq_of_mul_eq_mul_right hq e)
      have hfl : floorPat 52 (p / q) = infMag 52 11 - 1 := by
        refine floorPat_unique ((Nat.le_div_iff_mul_le hq).2 (by omega)) ((Nat.div_lt_iff_lt_mul hq).2 ?_)
        rw [Nat.sub_add_cancel (by omega)]; exact hp
      have := roundPat_tie_even hq hfl (by rw [Nat.sub_add_cancel (by omega), Nat.add_mul]; omega)
      omega
    · have := le_roundPat_of_le hq hp
      omega
  · intro h
    by_contra hc
    have h1 := roundPat_nearest 52 p hq (infMag 52 11 - 1)
    have h2 : magVal 52 (infMag 52 11) * q ≤ magVal 52 (roundPat 52 p q) * q := Nat.mul_le_mul_right _ (magVal_le_iff.2 (by omega))
    omega

theorem qexp_val : qexp 52 11 = 1074 := by decide

theorem signed_dist (neg : Bool) (a v : ℚ) : |signedQ neg a - signedQ neg v| = |a - v| := by
  unfold signedQ
  cases neg
  · simp
  · simp only [if_true]; rw [← abs_neg]; congr 1; ring

theorem signed_dist' (neg : Bool) {a v : ℚ} (ha : 0 ≤ a) (hv : 0 ≤ v) : |signedQ (!neg) a - signedQ neg v| = a + v := by
  unfold signedQ
  cases neg
  · simp only [Bool.not_false, if_true, Bool.false_eq_true, if_false]
    rw [show -a - v = -(a + v) by ring, abs_neg, abs_of_nonneg (by linarith)]
  · simp only [Bool.not_true, if_true, Bool.false_eq_true, if_false]
    rw [show a - -v = a + v by ring, abs_of_nonneg (by linarith)]

/-- Rounding gives the nearest double. -/
theorem ofRound_nearest (neg : Bool) (p : Nat) {q : Nat} (hq : 0 < q) : Nearest neg ((p : ℚ) / q / 2 ^ qexp 52 11) (ofRound neg p q : F64) := by
  have hq' : (0 : ℚ) < q := by exact_mod_cast hq
  refine ⟨rfl, ?_⟩
  have hb : (p : ℚ) / q / 2 ^ qexp 52 11 < 2 ^ 1024 - 2 ^ 970 ↔ roundPat 52 p q < infMag 52 11 := by
    rw [top_bound hq, top_vals.1, top_vals.2.1, div_div, div_lt_iff₀ (by have := qpow_posQ 52 11; positivity), qexp_val]
    have e : (2 ^ 2098 - 2 ^ 2045 + 2 ^ 2098 : Nat) = 2 * (2 ^ 1024 - 2 ^ 970) * 2 ^ 1074 := by decide +kernel
    have hs : (2:ℚ) ^ 1024 - 2 ^ 970 = ((2 ^ 1024 - 2 ^ 970 : Nat) : ℚ) := by
      rw [Nat.cast_sub (Nat.pow_le_pow_right (by omega) (by omega))]; push_cast; rfl
    rw [e, hs]
    generalize (2 ^ 1024 - 2 ^ 970 : Nat) = B
    generalize hQ : (2 ^ 1074 : Nat) = Q
    have : (2 : ℚ) ^ 1074 = (Q : ℚ) := by rw [← hQ]; push_cast; rfl
    rw [this]
    have : (p : ℚ) < (B : ℚ) * (q * Q) ↔ p < B * (q * Q) := by exact_mod_cast Iff.rfl
    rw [this]
    have : 2 * B * Q * q = 2 * (B * (q * Q)) := by ring
    rw [this]
    omega
  by_cases hlt : roundPat 52 p q < infMag 52 11
  · rw [if_pos (hb.2 hlt)]
    clear hb
    have hm : (ofRound neg p q : F64).mag.val = roundPat 52 p q := by
      show min _ _ = _
      exact Nat.min_eq_left hlt.le
    refine ⟨by unfold isFinite; rw [hm]; exact decide_eq_true hlt, ?_⟩
    intro y _
    have hQ := qpow_posQ 52 11
    generalize hQe : (2 : ℚ) ^ qexp 52 11 = Q at *
    have hw0 : (0 : ℚ) ≤ (p : ℚ) / q := div_nonneg (Nat.cast_nonneg _) hq'.le
    have hv0 : (0 : ℚ) ≤ (p : ℚ) / q / Q := div_nonneg hw0 hQ.le
    have hsc : ∀ k : Nat, |(magVal 52 k : ℚ) / Q - (p : ℚ) / q / Q| = |(magVal 52 k : ℚ) - (p : ℚ) / q| / Q := by
      intro k
      rw [← sub_div, abs_div, abs_of_pos hQ]
    have hx : |(ofRound neg p q : F64).val - signedQ neg ((p : ℚ) / q / Q)| = |(magVal 52 (roundPat 52 p q) : ℚ) - (p : ℚ) / q| / Q := by
      rw [val_pat, hm, hQe, ofRound_sign, signed_dist, hsc]
    have hxv : (ofRound neg p q : F64).val = signedQ neg ((magVal 52 (roundPat 52 p q) : ℚ) / Q) := by rw [val_pat, hm, hQe, ofRound_sign]
    rw [hx, hm]
    by_cases hs : y.sign = neg
    · have hy : |y.val - signedQ neg ((p : ℚ) / q / Q)| = |(magVal 52 y.mag.val : ℚ) - (p : ℚ) / q| / Q := by
        rw [val_pat, hQe, hs, signed_dist, hsc]
      rw [hy]
      rcases roundPat_tie (mb := 52) hq (p := p) y.mag.val with h | ⟨h, h'⟩
      · exact .inl ((div_lt_div_iff_of_pos_right hQ).2 h)
      · refine .inr ⟨by rw [h], h'.imp (fun e => ?_) id⟩
        rw [hxv, val_pat, hQe, hs, e]
    · have hs' : y.sign = !neg := by cases neg <;> cases hh : y.sign <;> first | rfl | exact absurd hh hs
      have hy : |y.val - signedQ neg ((p : ℚ) / q / Q)| = (magVal 52 y.mag.val : ℚ) / Q + (p : ℚ) / q / Q := by
        rw [val_pat, hQe, hs', signed_dist' neg (div_nonneg (Nat.cast_nonneg _) hQ.le) hv0]
      rw [hy]
      have h0 : |(magVal 52 0 : ℚ) - (p : ℚ) / q| / Q = (p : ℚ) / q / Q := by
        have : magVal 52 0 = 0 := magVal_eq_zero.2 rfl
        rw [this]; simp only [Nat.cast_zero, zero_sub, abs_neg]
        rw [abs_of_nonneg hw0]
      rcases Nat.eq_zero_or_pos y.mag.val with hz | hz
      · have hz' : magVal 52 y.mag.val = 0 := by rw [hz]; exact magVal_eq_zero.2 rfl
        have hy0 : y.val = 0 := by rw [val_pat, hz']; unfold signedQ; simp
        rw [hz', Nat.cast_zero, zero_div, zero_add, ← h0, hy0]
        rcases roundPat_tie (mb := 52) hq (p := p) 0 with h | ⟨h, h'⟩
        · exact .inl ((div_lt_div_iff_of_pos_right hQ).2 h)
        · refine .inr ⟨by rw [h], h'.imp (fun e => ?_) id⟩
          rw [hxv, ← e, magVal_eq_zero.2 rfl]; unfold signedQ; simp
      · left
        have h1 : |(magVal 52 (roundPat 52 p q) : ℚ) - (p : ℚ) / q| ≤ |(magVal 52 0 : ℚ) - (p : ℚ) / q| := by
          rcases roundPat_tie (mb := 52) hq (p := p) 0 with h | ⟨h, -⟩
          · exact h.le
          · exact h.le
        have h2 : |(magVal 52 (roundPat 52 p q) : ℚ) - (p : ℚ) / q| / Q ≤ (p : ℚ) / q / Q := by
          rw [← h0]; exact (div_le_div_iff_of_pos_right hQ).2 h1
        have h3 : (0 : ℚ) < (magVal 52 y.mag.val : ℚ) / Q := by
          have : 0 < magVal 52 y.mag.val := Nat.pos_of_ne_zero fun e => hz.ne' (magVal_eq_zero.1 e)
          have : (0 : ℚ) < magVal 52 y.mag.val := by exact_mod_cast this
          exact div_pos this hQ
        linarith
  · rw [if_neg (fun h => hlt (hb.1 h))]
    unfold isInf
    have : (ofRound neg p q : F64).mag.val = infMag 52 11 := Nat.min_eq_right (by omega)
    rw [this]; exact decide_eq_true rfl

theorem val_inj_sign {x y : F64} (hs : x.sign = y.sign) (h : x.val = y.val) : x = y := by
  rw [ext_iff']
  refine ⟨hs, ?_⟩
  rw [val_pat, val_pat, hs] at h
  have hQ := qpow_posQ 52 11
  have : (magVal 52 x.mag.val : ℚ) / 2 ^ qexp 52 11 = (magVal 52 y.mag.val : ℚ) / 2 ^ qexp 52 11 := by
    unfold signedQ at h
    split at h
    · exact neg_injective h
    · exact h
  rw [div_left_inj' hQ.ne'] at this
  exact magVal_inj.1 (by exact_mod_cast this)

/-- There is only one nearest double. -/
theorem nearest_unique {neg : Bool} {v : ℚ} {x y : F64} (hx : Nearest neg v x) (hy : Nearest neg v y) : x = y := by
  obtain ⟨sx, hx⟩ := hx
  obtain ⟨sy, hy⟩ := hy
  by_cases hv : v < 2 ^ 1024 - 2 ^ 970
  · rw [if_pos hv] at hx hy
    obtain ⟨fx, hx⟩ := hx
    obtain ⟨fy, hy⟩ := hy
    refine val_inj_sign (sx.trans sy.symm) ?_
    by_contra hne
    have h1 := hx y fy
    have h2 := hy x fx
    generalize signedQ neg v = w at *
    have hd : |x.val - w| = |y.val - w| := by
      rcases h1 with h1 | h1
      · rcases h2 with h2 | h2
        · linarith
        · exact h2.1.symm
      · exact h1.1
    have ex : x.mag.val % 2 = 0 := by
      rcases h1 with h1 | ⟨_, h1 | h1⟩
      · linarith
      · exact absurd h1.symm hne
      · exact h1
    have ey : y.mag.val % 2 = 0 := by
      rcases h2 with h2 | ⟨_, h2 | h2⟩
      · linarith
      · exact absurd h2 hne
      · exact h2
    have hk : x.mag.val ≠ y.mag.val := fun e => hne (by rw [val_pat, val_pat, e, sx, sy])
    -- a float strictly between
    have main : ∀ a b : F64, a.sign = neg → b.sign = neg → a.mag.val < b.mag.val → a.mag.val % 2 = 0 → b.mag.val % 2 = 0 → b.isFinite = true →
        |a.val - w| = |b.val - w| → (∀ z : F64, z.isFinite = true → |a.val - w| ≤ |z.val - w|) → False := by
      intro a b sa sb hab ea eb fb hd hz
      have fb' : b.mag.val < infMag 52 11 := of_decide_eq_true fb
      let z : F64 := ⟨neg, ⟨a.mag.val + 1, by have := b.mag.isLt; omega⟩⟩
      have fz : z.isFinite = true := decide_eq_true (show a.mag.val + 1 < _ by omega)
      have hz := hz z fz
      have vz := val_pat z
      have va := val_pat a
      have vb := val_pat b
      rw [sa] at va; rw [sb] at vb
      have hQ := qpow_posQ 52 11
      have l1 : (magVal 52 a.mag.val : ℚ) / 2 ^ qexp 52 11 < (magVal 52 (a.mag.val + 1) : ℚ) / 2 ^ qexp 52 11 :=
        (div_lt_div_iff_of_pos_right hQ).2 (by exact_mod_cast magVal_lt_iff.2 (Nat.lt_succ_self _))
      have l2 : (magVal 52 (a.mag.val + 1) : ℚ) / 2 ^ qexp 52 11 < (magVal 52 b.mag.val : ℚ) / 2 ^ qexp 52 11 :=
        (div_lt_div_iff_of_pos_right hQ).2 (by exact_mod_cast magVal_lt_iff.2 (by omega))
      have vz' : z.val = signedQ neg ((magVal 52 (a.mag.val + 1) : ℚ) / 2 ^ qexp 52 11) := vz
      rw [vz', va] at hz
      rw [va, vb] at hd
      generalize (magVal 52 (a.mag.val + 1) : ℚ) / 2 ^ qexp 52 11 = c at *
      generalize (magVal 52 a.mag.val : ℚ) / 2 ^ qexp 52 11 = s at *
      generalize (magVal 52 b.mag.val : ℚ) / 2 ^ qexp 52 11 = t at *
      unfold signedQ at hd hz
      cases neg
      · simp only [Bool.false_eq_true, if_false] at hd hz
        rcases abs_eq_abs.1 hd with e | e
        · linarith
        · have : w = (s + t) / 2 := by linarith
          subst this
          rw [abs_of_neg (by linarith : s - (s + t) / 2 < 0)] at hz
          exact absurd hz (not_le.2 (abs_lt.2 ⟨by linarith, by linarith⟩))
      · simp only [if_true] at hd hz
        rcases abs_eq_abs.1 hd with e | e
        · linarith
        · have : w = -(s + t) / 2 := by linarith
          subst this
          rw [abs_of_pos (by linarith : 0 < -s - -(s + t) / 2)] at hz
          exact absurd hz (not_le.2 (abs_lt.2 ⟨by linarith, by linarith⟩))
    have nx : ∀ z : F64, z.isFinite = true → |x.val - w| ≤ |z.val - w| := fun z fz => by
      rcases hx z fz with h | h
      · exact h.le
      · exact h.1.le
    have ny : ∀ z : F64, z.isFinite = true → |y.val - w| ≤ |z.val - w| := fun z fz => by
      rcases hy z fz with h | h
      · exact h.le
      · exact h.1.le
    rcases Nat.lt_or_gt_of_ne hk with hl | hl
    · exact main x y sx sy hl ex ey fy hd nx
    · exact main y x sy sx hl ey ex fx hd.symm ny
  · rw [if_neg hv] at hx hy
    rw [ext_iff']
    exact ⟨sx.trans sy.symm, (of_decide_eq_true hx).trans (of_decide_eq_true hy).symm⟩

end Atsc
