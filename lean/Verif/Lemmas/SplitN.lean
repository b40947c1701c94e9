import Verif.Lemmas.Float
/- What `splitN` computes on zero and on magnitudes in [2^-64, 2^63). -/
namespace Atsc
open FP

theorem magVal_normal {mb k : Nat} (h : 1 ≤ k / 2 ^ mb) :
    magVal mb k = (k % 2 ^ mb + 2 ^ mb) * 2 ^ (k / 2 ^ mb - 1) := by
  unfold magVal magShift
  congr 1
  have hk := Nat.div_add_mod k (2 ^ mb)
  obtain ⟨t, ht⟩ : ∃ t, k / 2 ^ mb = t + 1 := ⟨k / 2 ^ mb - 1, by omega⟩
  rw [ht] at hk ⊢
  have : 2 ^ mb * (t + 1) = t * 2 ^ mb + 2 ^ mb := by ring
  rw [this] at hk
  simp only [Nat.add_sub_cancel]
  omega

/-- `splitN` unfolded on sign, exponent field and mantissa field. -/
def splitCore (neg : Bool) (e m : Nat) : Int × F64 :=
  let mant0 : Nat := m + 2 ^ 52
  let mantissa : Int := if neg then -(mant0 : Int) else mant0
  let mantissaU : Nat := if neg then 2 ^ 64 - mant0 else mant0
  if e ≤ 1011 then
    if 1011 - e < 64 then (0, (F64.lit ((mantissaU / 2 ^ (1011 - e) : Nat) : Int)).mul fractScale)
    else (0, FP.zero)
  else if e < 1075 then
    (mantissa / 2 ^ (64 - (e - 1011)),
      (F64.lit ((mantissaU * 2 ^ (e - 1011) % 2 ^ 64 : Nat) : Int)).mul fractScale)
  else if e < 1139 then (wrapI64 (mantissa * 2 ^ (e - 1011 - 64)), FP.zero)
  else (0, FP.zero)

theorem splitN_eq (x : F64) : splitN x = splitCore x.sign (x.mag.val / 2 ^ 52) (x.mag.val % 2 ^ 52) := by
  obtain ⟨s, ⟨k, hk⟩⟩ := x
  have hk' : k < 9223372036854775808 := by simpa using hk
  have h1 : decide (2 ^ 63 ≤ (⟨s, ⟨k, hk⟩⟩ : F64).toBits) = s := by
    unfold toBits; cases s <;> simp <;> omega
  have h2 : (⟨s, ⟨k, hk⟩⟩ : F64).toBits / 2 ^ 52 % 2 ^ 11 = k / 2 ^ 52 := by
    unfold toBits; cases s <;> simp <;> omega
  have h3 : (⟨s, ⟨k, hk⟩⟩ : F64).toBits % 2 ^ 52 = k % 2 ^ 52 := by
    unfold toBits; cases s <;> simp <;> omega
  unfold splitN splitCore
  simp only [h1, h2, h3]
  generalize hE : k / 2 ^ 52 = e
  have hle : ((e : Int) + (64 - 53 - 1023 + 1) ≤ 0) = (e ≤ 1011) := by
    apply propext; constructor <;> intro h <;> omega
  have hle2 : ((e : Int) + (64 - 53 - 1023 + 1) < 64) = (e < 1075) := by
    apply propext; constructor <;> intro h <;> omega
  have hle3 : ((e : Int) + (64 - 53 - 1023 + 1) < 128) = (e < 1139) := by
    apply propext; constructor <;> intro h <;> omega
  have hs : (-((e : Int) + (64 - 53 - 1023 + 1))).toNat = 1011 - e := by omega
  have hs2 : ((e : Int) + (64 - 53 - 1023 + 1)).toNat = e - 1011 := by omega
  simp only [hle, hle2, hle3, hs, hs2]

theorem fractScale_eq : fractScale = ⟨false, ⟨959 * 2 ^ 52, by decide⟩⟩ := by decide +kernel

theorem fractScale_absVal : fractScale.absVal = 2 ^ 52 * 2 ^ 958 := by
  rw [fractScale_eq]
  simp only [absVal]
  rw [magVal_normal (by decide)]
  norm_num

/-- The fraction is reported as zero only for a zero bit field. -/
theorem fract_zero_iff (u : Nat) : ((F64.lit (u : Int)).mul fractScale).feq FP.zero = true ↔ u = 0 := by
  constructor
  · intro h
    by_contra hu
    rw [feq_iff] at h
    simp only [scaled_zero] at h
    obtain ⟨h1, -, h3⟩ := h
    -- lit u has magnitude at least one
    have hlit : 2 ^ qexp 52 11 ≤ (F64.lit (u : Int)).absVal := by
      unfold F64.lit FP.ofInt ofRound absVal
      rw [ofPat_mag]
      have hk : magVal 52 (1023 * 2 ^ 52) = 2 ^ qexp 52 11 := by
        rw [magVal_normal (by decide)]
        decide +kernel
      rw [← hk]
      apply magVal_le_iff.2
      refine le_min ?_ (by decide)
      apply le_roundPat_of_le Nat.one_pos
      rw [hk, Nat.mul_one]
      simp
      omega
    have hfs := fractScale_absVal
    unfold mul at h3
    have hfn : fractScale.isNaN = false := by rw [fractScale_eq]; decide
    have hfi : fractScale.isInf = false := by rw [fractScale_eq]; decide
    have hln : (F64.lit (u : Int)).isNaN = false := by unfold F64.lit FP.ofInt; simp
    have hf0 : fractScale.absVal ≠ 0 := by rw [hfs]; exact Nat.mul_ne_zero (by decide) (ne_of_gt (Nat.two_pow_pos _))
    have hl0 : (F64.lit (u : Int)).absVal ≠ 0 := by
      have := qpow_pos 52 11
      omega
    simp only [hfn, hln, hfi, Bool.or_false, Bool.or_self, Bool.false_eq_true, if_false] at h3
    have habs : ∀ z : F64, z.scaled = 0 → z.mag.val = 0 := by
      intro z hz
      have : z.absVal = 0 := by rw [← scaled_natAbs, hz]; rfl
      exact magVal_eq_zero.1 this
    split_ifs at h3 with hi
    · simp [hl0, hf0] at *
    · have := habs _ h3
      simp only [inf, ofPat_mag] at this
      revert this; decide
    · have := habs _ h3
      simp only [ofRound, ofPat_mag] at this
      have h1' : 1 ≤ roundPat 52 ((F64.lit (u : Int)).absVal * fractScale.absVal) (2 ^ qexp 52 11) := by
        apply le_roundPat_of_le (qpow_pos 52 11)
        rw [magVal_small (by decide)]
        calc 1 * 2 ^ qexp 52 11 ≤ (F64.lit (u : Int)).absVal * 1 := by omega
          _ ≤ _ := Nat.mul_le_mul_left _ (by omega)
      have h2' : 1 ≤ infMag 52 11 := by decide
      omega
  · rintro rfl
    decide +kernel

/-- Specification of an integral value: `x` equals the integer `n`. -/
abbrev IsInt (x : F64) (n : Int) : Prop := x.scaled = n * (2 ^ qexp 52 11 : Nat)

/-- Zero, or magnitude in `[2^-64, 2^63)`: where `splitN` is right.  In units of `2^-1074`. -/
def SplitSafe (x : F64) : Prop :=
  x.absVal = 0 ∨ (2 ^ 1010 ≤ x.absVal ∧ x.absVal < 2 ^ 1137)

theorem SplitSafe.exp {x : F64} (h : SplitSafe x) :
    x.mag.val = 0 ∨ (959 ≤ x.mag.val / 2 ^ 52 ∧ x.mag.val / 2 ^ 52 < 1086) := by
  rcases h with h | ⟨h1, h2⟩
  · exact Or.inl (magVal_eq_zero.1 h)
  · right
    have e1 : magVal 52 (959 * 2 ^ 52) = 2 ^ 1010 := by rw [magVal_normal (by decide)]; decide +kernel
    have e2 : magVal 52 (1086 * 2 ^ 52) = 2 ^ 1137 := by rw [magVal_normal (by decide)]; decide +kernel
    rw [← e1] at h1
    rw [← e2] at h2
    have h1' := magVal_le_iff.1 h1
    have h2' := magVal_lt_iff.1 h2
    omega

theorem splitCore_int (neg : Bool) (m t : Nat) (hm : m < 2 ^ 52) :
    ((if neg then 2 ^ 64 - (m + 2 ^ 52) else m + 2 ^ 52) * 2 ^ t % 2 ^ 64 = 0) →
    t < 64 → (m + 2 ^ 52) % 2 ^ (64 - t) = 0 := by
  intro h ht
  have h1 : 2 ^ (64 - t) ∣ (if neg then 2 ^ 64 - (m + 2 ^ 52) else m + 2 ^ 52) := by
    have : 2 ^ (64 - t) * 2 ^ t ∣ (if neg then 2 ^ 64 - (m + 2 ^ 52) else m + 2 ^ 52) * 2 ^ t := by
      rw [← pow_add, Nat.sub_add_cancel (by omega)]
      exact Nat.dvd_of_mod_eq_zero h
    exact Nat.dvd_of_mul_dvd_mul_right (Nat.two_pow_pos _) this
  apply Nat.mod_eq_zero_of_dvd
  cases neg
  · simpa using h1
  · simp only [if_true] at h1
    have h64 : 2 ^ (64 - t) ∣ 2 ^ 64 := Nat.pow_dvd_pow 2 (by omega)
    have := (Nat.dvd_sub_iff_right (by omega) h64).1 h1
    exact this

/-- On safe inputs a zero fraction means `x` is the integer in the first component. -/
theorem splitN_int {x : F64} (hx : SplitSafe x) (h : (splitN x).2.feq FP.zero = true) :
    IsInt x (splitN x).1 := by
  have hexp := hx.exp
  rw [splitN_eq] at *
  have hmlt : x.mag.val % 2 ^ 52 < 2 ^ 52 := Nat.mod_lt _ (Nat.two_pow_pos _)
  unfold IsInt scaled absVal
  rcases hexp with h0 | ⟨h1, h2⟩
  · rw [h0]
    simp [splitCore]
  · rw [magVal_normal (by omega)]
    generalize x.mag.val / 2 ^ 52 = e at *
    generalize x.mag.val % 2 ^ 52 = m at *
    generalize x.sign = s at *
    have hq : qexp 52 11 = 1074 := by decide
    have hsplit : ∀ (c : Nat) (i : Int), (m + 2 ^ 52) * 2 ^ (e - 1) = c * 2 ^ qexp 52 11 →
        i = (if s then -(c : Int) else c) →
        (if s = true then -(((m + 2 ^ 52) * 2 ^ (e - 1) : Nat) : Int) else (((m + 2 ^ 52) * 2 ^ (e - 1) : Nat) : Int))
          = i * (2 ^ qexp 52 11 : Nat) := by
      intro c i hc hi
      rw [hc, hi, Nat.cast_mul]
      cases s <;> simp
    by_cases c1 : e ≤ 1011
    · exfalso
      unfold splitCore at h
      simp only [c1, if_true, show 1011 - e < 64 by omega] at h
      rw [fract_zero_iff] at h
      have hU : 2 ^ 52 ≤ (if s = true then 2 ^ 64 - (m + 2 ^ 52) else m + 2 ^ 52) := by
        split_ifs <;> omega
      have : 2 ^ (1011 - e) ≤ 2 ^ 52 := Nat.pow_le_pow_right (by decide) (by omega)
      have := Nat.div_pos (Nat.le_trans this hU) (Nat.two_pow_pos _)
      omega
    · by_cases c2 : e < 1075
      · have hd : (splitCore s e m).1 = (if s then -((m + 2 ^ 52 : Nat) : Int) else ((m + 2 ^ 52 : Nat) : Int)) / 2 ^ (64 - (e - 1011)) := by
          unfold splitCore; simp only [c1, c2, if_true, if_false]
        unfold splitCore at h
        simp only [c1, c2, if_true, if_false] at h
        rw [fract_zero_iff] at h
        have hmod := splitCore_int s m (e - 1011) hmlt h (by omega)
        obtain ⟨c, hc⟩ := Nat.dvd_of_mod_eq_zero hmod
        apply hsplit c
        · rw [hc, hq, show 1074 = (64 - (e - 1011)) + (e - 1) by omega, pow_add]; ring
        · rw [hd, hc]
          have hp : (2 ^ (64 - (e - 1011)) : Int) ≠ 0 := ne_of_gt (by positivity)
          cases s
          · simp only [Bool.false_eq_true, if_false]
            push_cast
            exact Int.mul_ediv_cancel_left _ hp
          · simp only [if_true]
            push_cast
            rw [← mul_neg]
            exact Int.mul_ediv_cancel_left _ hp
      · have c3 : e < 1139 := by omega
        have hd : (splitCore s e m).1 = wrapI64 ((if s then -((m + 2 ^ 52 : Nat) : Int) else ((m + 2 ^ 52 : Nat) : Int)) * 2 ^ (e - 1011 - 64)) := by
          unfold splitCore; simp only [c1, c2, c3, if_true, if_false]
        have hb : (m + 2 ^ 52) * 2 ^ (e - 1011 - 64) < 2 ^ 63 := by
          have : 2 ^ (e - 1011 - 64) ≤ 2 ^ 10 := Nat.pow_le_pow_right (by decide) (by omega)
          calc (m + 2 ^ 52) * 2 ^ (e - 1011 - 64) ≤ (m + 2 ^ 52) * 2 ^ 10 := Nat.mul_le_mul_left _ this
            _ < 2 ^ 63 := by omega
        apply hsplit ((m + 2 ^ 52) * 2 ^ (e - 1011 - 64))
        · rw [hq, mul_assoc, ← pow_add]; congr 2; omega
        · rw [hd]
          generalize hC : (m + 2 ^ 52) * 2 ^ (e - 1011 - 64) = C at hb
          have hcast : ((m + 2 ^ 52 : Nat) : Int) * 2 ^ (e - 1011 - 64) = (C : Int) := by
            rw [← hC]; push_cast; ring
          unfold wrapI64
          cases s
          · simp only [Bool.false_eq_true, if_false, hcast]
            omega
          · simp only [if_true, neg_mul, hcast]
            omega

end Atsc
