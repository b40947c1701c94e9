import Verif.Model.InterpLib
import Verif.Props.Poly
import Verif.Props.Auto
/- The interpolation law assumed in C19 and C28 (`Ext.Interpolates`) holds for the reconstruction of the two interpolation crates, and the
reconstruction reproduces the tests of /repo/atsc/src/compressor/polynomial.rs (InterpGolden1-3). -/
namespace Atsc
open FP

def IsZero (z : F64) : Prop := z.isFinite = true ∧ z.absVal = 0

theorem zero_of {s : Bool} {k : Nat} (hk : k = 0) : IsZero (FP.ofPat s k) := by
  subst hk
  cases s <;> exact ⟨by decide +kernel, by decide +kernel⟩

theorem isZero_zero : IsZero FP.zero := zero_of rfl

theorem ofRound_zero (s : Bool) {q : Nat} (hq : 0 < q) : IsZero (FP.ofRound s 0 q : F64) := by
  rw [ofRound_exact (k := 0) hq (Nat.zero_le _) (by rw [show magVal 52 0 = 0 by decide, Nat.zero_mul])]
  exact zero_of rfl

theorem mul_isZero {a z : F64} (ha : a.isFinite = true) (hz : IsZero z) : IsZero (a.mul z) := by
  unfold FP.mul
  rw [isFinite_not_nan ha, isFinite_not_nan hz.1, isFinite_not_inf ha, isFinite_not_inf hz.1, hz.2, Nat.mul_zero]
  simp only [Bool.or_self, Bool.false_eq_true, if_false]
  exact ofRound_zero _ (qpow_pos _ _)

theorem isZero_mul {a z : F64} (ha : a.isFinite = true) (hz : IsZero z) : IsZero (z.mul a) := by
  unfold FP.mul
  rw [isFinite_not_nan ha, isFinite_not_nan hz.1, isFinite_not_inf ha, isFinite_not_inf hz.1, hz.2, Nat.zero_mul]
  simp only [Bool.or_self, Bool.false_eq_true, if_false]
  exact ofRound_zero _ (qpow_pos _ _)

theorem neg_isZero {z : F64} (hz : IsZero z) : IsZero z.neg := hz

theorem scaled_zero {z : F64} (hz : z.absVal = 0) : z.scaled = 0 := by
  have := scaled_natAbs z; omega

theorem add_isZero {a z : F64} (ha : a.isFinite = true) (hz : IsZero z) : (a.add z).isFinite = true ∧ (a.add z).scaled = a.scaled := by
  have hk : a.mag.val < infMag 52 11 := by simpa [isFinite] using ha
  unfold FP.add
  rw [isFinite_not_nan ha, isFinite_not_nan hz.1, isFinite_not_inf ha, isFinite_not_inf hz.1, scaled_zero hz.2, Int.add_zero]
  simp only [Bool.or_self, Bool.false_eq_true, if_false]
  split
  · rename_i h
    have := zero_of (s := a.sign && z.sign) (k := 0) rfl
    exact ⟨this.1, by rw [scaled_zero this.2, h]⟩
  · rename_i h
    have e : (ofRound (decide (a.scaled < 0)) a.scaled.natAbs 1 : F64) = a := by
      rw [ofRound_exact (k := a.mag.val) Nat.one_pos hk.le (by rw [scaled_natAbs, Nat.mul_one]; rfl)]
      rw [FP.ext_iff']
      refine ⟨?_, by rw [ofPat_mag]; omega⟩
      rw [ofPat_sign]
      have := scaled_natAbs a
      unfold FP.scaled at h ⊢
      cases a.sign <;> simp at * <;> omega
    rw [e]
    exact ⟨ha, rfl⟩

theorem add_zeros {a z : F64} (ha : IsZero a) (hz : IsZero z) : IsZero (a.add z) := by
  have := add_isZero ha.1 hz
  refine ⟨this.1, ?_⟩
  rw [← scaled_natAbs, this.2, scaled_zero ha.2]; rfl

theorem sub_zeros {a z : F64} (ha : IsZero a) (hz : IsZero z) : IsZero (a.sub z) := add_zeros ha (neg_isZero hz)

theorem mul_one_feq {a o : F64} (ha : a.isFinite = true) (ho : o.isFinite = true) (h1 : o.sign = false) (h2 : o.absVal = 2 ^ qexp 52 11) :
    (a.mul o).isFinite = true ∧ (a.mul o).scaled = a.scaled := by
  have hk : a.mag.val < infMag 52 11 := by simpa [isFinite] using ha
  have e : a.mul o = a := by
    unfold FP.mul
    rw [isFinite_not_nan ha, isFinite_not_nan ho, isFinite_not_inf ha, isFinite_not_inf ho, h2, h1]
    simp only [Bool.or_self, Bool.false_eq_true, if_false, Bool.bne_false]
    rw [show a.absVal = magVal 52 a.mag.val from rfl, ofRound_exact (k := a.mag.val) (qpow_pos 52 11) hk.le rfl]
    rw [FP.ext_iff']
    exact ⟨rfl, by rw [ofPat_mag]; omega⟩
  rw [e]; exact ⟨ha, rfl⟩

/-- `x + 1` for a zero `x` behaves like 1 as a factor. -/
theorem mul_zero_plus_one {a z : F64} (ha : a.isFinite = true) (hz : IsZero z) :
    (a.mul (z.add (F64.lit 1))).isFinite = true ∧ (a.mul (z.add (F64.lit 1))).scaled = a.scaled := by
  have h1 : (F64.lit 1).isFinite = true := (F64.lit_exact (n := 1) (by decide)).2
  have hs : (z.add (F64.lit 1)).isFinite = true ∧ (z.add (F64.lit 1)).scaled = (F64.lit 1).scaled := by
    have hc : z.add (F64.lit 1) = (F64.lit 1).add z := by
      unfold FP.add
      rw [isFinite_not_nan h1, isFinite_not_nan hz.1, isFinite_not_inf h1, isFinite_not_inf hz.1]
      simp only [Bool.or_self, Bool.false_eq_true, if_false]
      rw [Int.add_comm, Bool.and_comm]
    rw [hc]; exact add_isZero h1 hz
  have hl : (F64.lit 1).scaled = ((2 ^ qexp 52 11 : Nat) : Int) := by
    rw [(F64.lit_exact (n := 1) (by decide)).1, Int.one_mul]
  have hp : 0 < 2 ^ qexp 52 11 := qpow_pos _ _
  rw [hl] at hs
  refine mul_one_feq ha hs.1 ?_ ?_
  · have := hs.2
    unfold FP.scaled at this
    cases hsg : (z.add (F64.lit 1)).sign with
    | false => rfl
    | true => rw [hsg, if_pos rfl] at this; omega
  · rw [← scaled_natAbs, hs.2]; rfl

theorem neg_val' (x : F64) : x.neg.val = -x.val := by
  rw [val_eq (by decide), val_eq (by decide)]
  have : x.neg.scaled = -x.scaled := by
    unfold FP.scaled
    show (if (!x.sign) = true then -(x.absVal : Int) else (x.absVal : Int)) = _
    cases x.sign <;> simp
  rw [this]; push_cast; ring

theorem ulpErr_abs (v : ℚ) : ulpErr v ≤ 1 + |v| := by
  have h := ulpErr_le v
  have h1 : (1 : ℚ) / 2 ^ 1075 ≤ 1 := by
    rw [div_le_one (by positivity)]; exact one_le_pow₀ (by norm_num)
  have h2 : |v| / 2 ^ 53 ≤ |v| := by
    apply div_le_self (abs_nonneg _); norm_num
  linarith

/-- Bound for a result of one operation. -/
theorem op_bound {r v B : ℚ} (h : |r - v| ≤ ulpErr v) (hv : |v| ≤ B) : |r| ≤ 2 * B + 1 := by
  have := ulpErr_abs v
  have h2 : |r| ≤ |r - v| + |v| := by
    have := abs_add_le (r - v) v
    rwa [sub_add_cancel] at this
  linarith

theorem lit_sub {n m : Nat} (h : m < n) (hn : n < 2 ^ 53) : (F64.lit n).sub (F64.lit m) = F64.lit ((n - m : Nat) : Int) := by
  have h1 := F64.lit_exact (n := (n : Int)) (by simp; omega)
  have h2 := F64.lit_exact (n := (m : Int)) (by simp; omega)
  have hneg : (F64.lit (m : Int)).neg.scaled = -(F64.lit (m : Int)).scaled := by
    unfold FP.scaled
    show (if (!(F64.lit (m : Int)).sign) = true then -((F64.lit (m : Int)).absVal : Int) else ((F64.lit (m : Int)).absVal : Int)) = _
    cases (F64.lit (m : Int)).sign <;> simp
  have hp : 0 < 2 ^ qexp 52 11 := qpow_pos _ _
  have hf : (F64.lit (m : Int)).neg.isFinite = true := h2.2
  have hsum : (F64.lit (n : Int)).scaled + (F64.lit (m : Int)).neg.scaled = (((n - m : Nat) * 2 ^ qexp 52 11 : Nat) : Int) := by
    rw [hneg, h1.1, h2.1]
    generalize 2 ^ qexp 52 11 = Q
    push_cast [Nat.cast_sub h.le]; ring
  unfold FP.sub FP.add
  rw [isFinite_not_nan h1.2, isFinite_not_inf h1.2, isFinite_not_nan hf, isFinite_not_inf hf, hsum]
  simp only [Bool.or_self, Bool.false_eq_true, if_false]
  have hpos : 0 < (n - m) * 2 ^ qexp 52 11 := Nat.mul_pos (by omega) hp
  rw [if_neg (Int.natCast_ne_zero.2 hpos.ne')]
  unfold F64.lit FP.ofInt
  rw [Int.natAbs_natCast, Int.natAbs_natCast, decide_eq_false (Int.not_lt.2 (Int.natCast_nonneg _)),
    decide_eq_false (Int.not_lt.2 (Int.natCast_nonneg _))]

theorem tangent_finite {b x : F64} (hb : b.isFinite = true) (hx : x.isFinite = true) (hbv : |b.val| ≤ 2 ^ 1000) (hxv : |x.val| ≤ 2 ^ 1000)
    {n m l k : Nat} (hm : m < n) (hn : n < 2 ^ 53) (hk : k < l) (hl : l < 2 ^ 53) (hle : l - k ≤ n - m) :
    (((b.sub x).div ((F64.lit n).sub (F64.lit m))).mul ((F64.lit l).sub (F64.lit k))).isFinite = true := by
  have big : (2 : ℚ) ^ 1023 = 2 ^ 1000 * 2 ^ 23 := by rw [← pow_add]
  have pos : (2 : ℚ) ^ 53 ≤ 2 ^ 1000 := pow_le_pow_right₀ (by norm_num) (by norm_num)
  have hadd := @add_err
  have hdiv := @div_err
  have hmul := @mul_err
  simp only [big] at hadd hdiv hmul
  clear big
  generalize (2 : ℚ) ^ 1000 = P at *
  have e53 : (2 : ℚ) ^ 53 = 9007199254740992 := by norm_num
  have e23 : (2 : ℚ) ^ 23 = 8388608 := by norm_num
  rw [e53] at pos
  rw [e23] at hadd hdiv hmul
  clear e23 e53
  rw [lit_sub hm hn, lit_sub hk hl]
  obtain ⟨d, hd, hd1⟩ : ∃ d : Nat, d = n - m ∧ 1 ≤ d := ⟨n - m, rfl, by omega⟩
  obtain ⟨e, he, he1⟩ : ∃ e : Nat, e = l - k ∧ 1 ≤ e := ⟨l - k, rfl, by omega⟩
  rw [← hd, ← he]
  have fd : (F64.lit (d : Int)).isFinite = true := (F64.lit_exact (by simp; omega)).2
  have fe : (F64.lit (e : Int)).isFinite = true := (F64.lit_exact (by simp; omega)).2
  have vd : (F64.lit (d : Int)).val = d := by rw [lit_val' (by simp; omega)]; simp
  have ve : (F64.lit (e : Int)).val = e := by rw [lit_val' (by simp; omega)]; simp
  have hxn : |x.neg.val| ≤ P := by rw [neg_val', abs_neg]; exact hxv
  have s1 : |b.val + x.neg.val| ≤ 2 * P := (abs_add_le _ _).trans (by linarith)
  obtain ⟨g1, g2⟩ := hadd (a := b) (b := x.neg) hb hx (s1.trans (by linarith))
  have g3 := op_bound g2 s1
  have hdq : (1 : ℚ) ≤ d := by exact_mod_cast hd1
  have heq : (1 : ℚ) ≤ e := by exact_mod_cast he1
  have hed : (e : ℚ) ≤ d := by exact_mod_cast (by omega : e ≤ d)
  have hdb : (d : ℚ) ≤ 9007199254740992 := by exact_mod_cast (by omega : d ≤ 9007199254740992)
  have q1 : |(b.sub x).val / (F64.lit (d : Int)).val| ≤ 5 * P / d := by
    rw [vd, abs_div, abs_of_pos (by linarith : (0 : ℚ) < d)]
    apply div_le_div_of_nonneg_right _ (by linarith)
    show |(b.add x.neg).val| ≤ _
    linarith
  have q2 : 5 * P / d ≤ 5 * P := div_le_self (by linarith) hdq
  obtain ⟨g4, g5⟩ := hdiv (a := b.sub x) (b := F64.lit (d : Int)) g1 fd (by rw [vd]; linarith) (q1.trans (by linarith))
  have g6 := op_bound g5 q1
  refine (hmul g4 fe ?_).1
  rw [ve, abs_mul, abs_of_nonneg (by linarith : (0 : ℚ) ≤ e)]
  have q3 : 5 * P / d * e ≤ 5 * P := by
    rw [div_mul_eq_mul_div, div_le_iff₀ (by linarith)]
    exact mul_le_mul_of_nonneg_left hed (by linarith)
  calc _ ≤ (2 * (5 * P / d) + 1) * (e : ℚ) := mul_le_mul_of_nonneg_right g6 (by linarith)
    _ = 2 * (5 * P / d * e) + e := by ring
    _ ≤ P * 8388608 := by linarith

theorem div_isZero {z y : F64} (hz : IsZero z) (hy : y.isFinite = true) (h0 : y.absVal ≠ 0) : IsZero (z.div y) := by
  unfold FP.div
  rw [isFinite_not_nan hz.1, isFinite_not_nan hy, isFinite_not_inf hz.1, isFinite_not_inf hy, hz.2, Nat.zero_mul]
  simp only [Bool.or_self, Bool.false_eq_true, if_false]
  rw [if_neg h0]
  exact ofRound_zero _ (by omega)

theorem lit_pos_abs {d : Nat} (h1 : 1 ≤ d) (h2 : d < 2 ^ 53) : (F64.lit (d : Int)).isFinite = true ∧ (F64.lit (d : Int)).absVal ≠ 0 := by
  have := F64.lit_exact (n := (d : Int)) (by simp; omega)
  refine ⟨this.2, ?_⟩
  rw [← scaled_natAbs, this.1]
  have hp : 0 < 2 ^ qexp 52 11 := qpow_pos _ _
  generalize 2 ^ qexp 52 11 = Q at *
  rw [← Nat.cast_mul, Int.natAbs_natCast]
  exact (Nat.mul_pos h1 hp).ne'

theorem normalize_knot {n m : Nat} (h : m < n) (hn : n < 2 ^ 53) : IsZero (normalizeT (F64.lit m) (F64.lit m) (F64.lit n)) := by
  unfold normalizeT
  rw [lit_sub h hn, sub_self_zero (F64.lit_exact (by simp; omega)).2]
  obtain ⟨h1, h2⟩ := lit_pos_abs (d := n - m) (by omega) (by omega)
  exact div_isZero isZero_zero h1 h2

theorem feq_of_scaled {a b : F64} (ha : a.isFinite = true) (hb : b.isFinite = true) (h : a.scaled = b.scaled) : a.feq b = true :=
  feq_iff.2 ⟨isFinite_not_nan ha, isFinite_not_nan hb, h⟩

/-- `1 - t` for a zero `t` is a factor 1. -/
theorem one_sub_zero {a z : F64} (ha : a.isFinite = true) (hz : IsZero z) :
    (a.mul ((F64.lit 1).sub z)).isFinite = true ∧ (a.mul ((F64.lit 1).sub z)).scaled = a.scaled := by
  have h1 : (F64.lit 1).isFinite = true := (F64.lit_exact (n := 1) (by decide)).2
  have e : (F64.lit 1).sub z = z.neg.add (F64.lit 1) := by
    have hn : z.neg.isFinite = true := hz.1
    unfold FP.sub FP.add
    rw [isFinite_not_nan h1, isFinite_not_nan hn, isFinite_not_inf h1, isFinite_not_inf hn]
    simp only [Bool.or_self, Bool.false_eq_true, if_false]
    rw [Int.add_comm, Bool.and_comm]
  rw [e]
  exact mul_zero_plus_one ha (neg_isZero hz)

theorem lerp_knot {t a b : F64} (ha : a.isFinite = true) (hb : b.isFinite = true) (ht : IsZero t) : (lerpF t a b).feq a = true := by
  unfold lerpF
  have h1 := one_sub_zero ha ht
  have h2 := add_isZero h1.1 (mul_isZero hb ht)
  exact feq_of_scaled h2.1 ha (h2.2.trans h1.2)

theorem hermite_knot {t : F64} {x a b y : F64 × F64} (ha : a.2.isFinite = true) (hb : b.2.isFinite = true) (ht : IsZero t)
    (hm0 : (((b.2.sub x.2).div (b.1.sub x.1)).mul (b.1.sub a.1)).isFinite = true)
    (hm1 : (((y.2.sub a.2).div (y.1.sub a.1)).mul (b.1.sub a.1)).isFinite = true) : (hermiteF t x a b y).feq a.2 = true := by
  have l2 : (F64.lit 2).isFinite = true := (F64.lit_exact (n := 2) (by decide)).2
  have l3 : (F64.lit 3).isFinite = true := (F64.lit_exact (n := 3) (by decide)).2
  unfold hermiteF
  extract_lets t2 t3 twoT3 twoT2 threeT2 m0 m1
  have z2 : IsZero t2 := mul_isZero ht.1 ht
  have z3 : IsZero t3 := mul_isZero z2.1 ht
  have w3 : IsZero twoT3 := isZero_mul l2 z3
  have w2 : IsZero twoT2 := isZero_mul l2 z2
  have v2 : IsZero threeT2 := isZero_mul l3 z2
  have h1 := mul_zero_plus_one ha (sub_zeros w3 v2)
  have h2 := add_isZero h1.1 (mul_isZero (a := m0) hm0 (add_zeros (sub_zeros z3 w2) ht))
  have h3 := add_isZero h2.1 (mul_isZero hb (sub_zeros v2 w3))
  have h4 := add_isZero h3.1 (mul_isZero (a := m1) hm1 (sub_zeros z3 z2))
  exact feq_of_scaled h4.1 ha (h4.2.trans (h3.2.trans (h2.2.trans h1.2)))

theorem takeWhile_knot {keys : List SplineKey} (hs : keys.Pairwise fun a b => a.t.lt b.t = true) (hn : ∀ k ∈ keys, k.t.isNaN = false)
    {i : Nat} (hi : i < keys.length) : (keys.takeWhile fun k => k.t.le keys[i].t).length = i + 1 := by
  have e : keys = keys.take (i + 1) ++ keys.drop (i + 1) := (List.take_append_drop _ _).symm
  have h1 : ∀ k ∈ keys.take (i + 1), k.t.le keys[i].t = true := by
    intro k hk
    obtain ⟨j, hj, rfl⟩ := List.mem_iff_getElem.1 hk
    rw [List.length_take] at hj
    rw [List.getElem_take]
    have hj' : j < keys.length := by omega
    refine le_iff.2 ⟨hn _ (List.getElem_mem _), hn _ (List.getElem_mem _), ?_⟩
    rcases Nat.lt_or_ge j i with h | h
    · have := (lt_iff.1 (List.pairwise_iff_getElem.1 hs j i hj' hi h)).2.2
      omega
    · have : j = i := by omega
      subst this; exact le_refl _
  have h2 : (keys.drop (i + 1)).takeWhile (fun k => k.t.le keys[i].t) = [] := by
    cases hd : keys.drop (i + 1) with
    | nil => rfl
    | cons k r =>
      have hlen : i + 1 < keys.length := by
        by_contra hc
        rw [List.drop_of_length_le (by omega)] at hd; cases hd
      have hk : k = keys[i + 1] := by
        have := List.getElem_drop (xs := keys) (i := i + 1) (j := 0) (h := by rw [hd]; simp)
        simp only [hd, List.getElem_cons_zero, Nat.add_zero] at this
        exact this
      rw [List.takeWhile_cons_of_neg]
      intro hc
      rw [hk] at hc
      have a1 := (lt_iff.1 (List.pairwise_iff_getElem.1 hs i (i + 1) hi hlen (by omega))).2.2
      have a2 := (le_iff.1 hc).2.2
      omega
  generalize keys[i].t = t at h1 h2 ⊢
  rw [e, List.takeWhile_append_of_pos h1, h2, List.append_nil, List.length_take]
  omega

/-- The reconstruction of the crates satisfies the interpolation law. -/
theorem withInterp_interpolates (E : Ext) : E.withInterp.Interpolates where
  spline := by
    intro keys hs hk hc k hkm
    obtain ⟨i, hi, rfl⟩ := List.mem_iff_getElem.1 hkm
    have hn : ∀ k ∈ keys, k.t.isNaN = false := by
      intro k hk'
      obtain ⟨⟨n, hn, ht⟩, -⟩ := hk k hk'
      rw [ht]; exact isFinite_not_nan (F64.lit_exact (by simp; omega)).2
    have hlt : ∀ a b (ha : a < keys.length) (hb : b < keys.length), a < b → ∀ n m : Nat, n < 2 ^ 53 → m < 2 ^ 53 →
        keys[a].t = F64.lit n → keys[b].t = F64.lit m → n < m := by
      intro a b ha hb hab n m hn hm ea eb
      have := (lt_iff.1 (List.pairwise_iff_getElem.1 hs a b ha hb hab)).2.2
      rw [ea, eb, ← val_lt_iff (by decide), lit_val' (by simp; omega), lit_val' (by simp; omega)] at this
      exact_mod_cast this
    show ∃ v, splineClamped keys keys[i].t = some v ∧ _
    have htw := takeWhile_knot hs hn hi
    by_cases hlast : i + 1 = keys.length
    · -- the last key
      have hlow : lowerKey keys keys[i].t = none := by
        unfold lowerKey; rw [htw]; simp [hlast]
      have hself : keys[i].t.le keys[i].t = true := le_iff.2 ⟨hn _ (List.getElem_mem _), hn _ (List.getElem_mem _), le_refl _⟩
      obtain ⟨f, hf⟩ : ∃ f, keys.head? = some f := by
        cases h : keys.head? with
        | none => rw [List.head?_eq_none_iff] at h; rw [h] at hi; simp at hi
        | some f => exact ⟨f, rfl⟩
      have hl : keys.getLast? = some keys[i] := by
        rw [List.getLast?_eq_getElem?, List.getElem?_eq_getElem (by omega)]
        congr 2; omega
      have hfeq : keys[i].value.feq keys[i].value = true := feq_refl (isFinite_not_nan (hk _ (List.getElem_mem hi)).2.1)
      refine ⟨keys[i].value, ?_, hfeq⟩
      unfold splineClamped splineSample
      rw [hlow]
      simp only [hf, hl]
      split
      · rename_i hle
        -- then the first key is the last one
        have hf0 : f = keys[0]'(by omega) := by
          rw [List.head?_eq_getElem?, List.getElem?_eq_getElem (by omega)] at hf
          exact (Option.some.inj hf).symm
        rcases Nat.eq_zero_or_pos i with h | h
        · subst h; rw [hf0]
        · have a1 := (lt_iff.1 (List.pairwise_iff_getElem.1 hs 0 i (by omega) hi h)).2.2
          rw [hf0] at hle
          have a2 := (le_iff.1 hle).2.2
          omega
      · rfl
    · have hi1 : i + 1 < keys.length := by omega
      have hlow : lowerKey keys keys[i].t = some i := by
        unfold lowerKey; rw [htw]
        simp only [Nat.add_sub_cancel]
        rw [if_neg]; omega
      obtain ⟨⟨na, hna, ta⟩, fa, va⟩ := hk _ (List.getElem_mem hi)
      obtain ⟨⟨nb, hnb, tb⟩, fb, vb⟩ := hk _ (List.getElem_mem hi1)
      have hab := hlt i (i + 1) hi hi1 (by omega) na nb hna hnb ta tb
      have hz : IsZero (normalizeT keys[i].t keys[i].t keys[i + 1].t) := by
        rw [ta, tb]; exact normalize_knot hab hnb
      cases hcat : keys[i].catmullRom with
      | false =>
        refine ⟨lerpF (normalizeT keys[i].t keys[i].t keys[i + 1].t) keys[i].value keys[i + 1].value, ?_, lerp_knot fa fb hz⟩
        unfold splineClamped splineSample
        rw [hlow]
        simp only [List.getElem?_eq_getElem hi, List.getElem?_eq_getElem hi1, hcat, Bool.false_eq_true, if_false]
      | true =>
        obtain ⟨p1, p2⟩ := hc i hi hcat
        obtain ⟨⟨nx, hnx, tx⟩, fx, vx⟩ := hk _ (List.getElem_mem (n := i - 1) (by omega))
        obtain ⟨⟨ny, hny, ty⟩, fy, vy⟩ := hk _ (List.getElem_mem (n := i + 2) (by omega))
        have hxa := hlt (i - 1) i (by omega) hi (by omega) nx na hnx hna tx ta
        have hby := hlt (i + 1) (i + 2) hi1 (by omega) (by omega) nb ny hnb hny tb ty
        refine ⟨hermiteF (normalizeT keys[i].t keys[i].t keys[i + 1].t) (keys[i - 1].t, keys[i - 1].value) (keys[i].t, keys[i].value)
          (keys[i + 1].t, keys[i + 1].value) (keys[i + 2].t, keys[i + 2].value), ?_, hermite_knot fa fb hz ?_ ?_⟩
        · unfold splineClamped splineSample
          rw [hlow]
          simp only [List.getElem?_eq_getElem hi, List.getElem?_eq_getElem hi1, hcat, if_true, if_neg (by omega : ¬ i = 0),
            List.getElem?_eq_getElem (show i - 1 < keys.length by omega), List.getElem?_eq_getElem p2]
        · simp only [ta, tb, tx]
          exact tangent_finite fb fx vb vx (by omega) hnb hab hnb (by omega)
        · simp only [ta, tb, ty]
          exact tangent_finite fy fa vy va (by omega) hny hab hnb (by omega)
  idw := by
    intro ps vs hl hs hp hv i h1 h2
    show (shepard _ _ _).feq _ = true
    have key : ∀ (ps : List Nat) (vs : List F64) (num den : F64) (i : Nat) (h1 : i < ps.length) (h2 : i < vs.length),
        ps.Pairwise (· < ·) → (∀ p ∈ ps, p < 2 ^ 53) →
        shepardLoop (F64.lit ((ps[i] : Nat) : Int)) ((ps.map fun p : Nat => F64.lit (p : Int)).zip vs) num den = vs[i] := by
      intro ps
      induction ps with
      | nil => intro vs num den i h1; simp at h1
      | cons p ps ih =>
        intro vs num den i h1 h2 hs hp
        cases vs with
        | nil => simp at h2
        | cons v vs =>
          rw [List.map_cons, List.zip_cons_cons, shepardLoop]
          cases i with
          | zero =>
            rw [List.getElem_cons_zero, List.getElem_cons_zero, sub_self_zero (F64.lit_exact (by have := hp p (by simp); simp; omega)).2]
            simp only
            rw [if_pos (by decide +kernel)]
          | succ i =>
            rw [List.getElem_cons_succ, List.getElem_cons_succ]
            rw [List.pairwise_cons] at hs
            simp only [List.length_cons] at h1 h2
            have hlt := hs.1 _ (List.getElem_mem (n := i) (by omega))
            have hb := hp _ (List.mem_cons_of_mem _ (List.getElem_mem (n := i) (by omega)))
            simp only
            rw [if_neg, ih vs _ _ i (by omega) (by omega) hs.2 (fun q hq => hp q (by simp [hq]))]
            rw [lit_sub hlt hb]
            obtain ⟨-, g⟩ := lit_pos_abs (d := ps[i] - p) (by omega) (by omega)
            intro hc
            have hsc := (feq_iff.1 hc).2.2
            apply g
            have e0 : (FP.zero : F64).scaled = 0 := by decide +kernel
            have e1 := scaled_natAbs (F64.lit ((ps[i] - p : Nat) : Int)).abs
            rw [hsc, e0] at e1
            exact e1.symm
    rw [show shepard (ps.map fun p : Nat => F64.lit (p : Int)) vs (F64.lit ((ps[i] : Nat) : Int)) = vs[i] from key ps vs _ _ i h1 h2 hs hp]
    exact feq_refl (isFinite_not_nan (hv _ (List.getElem_mem _)).1)

/-- C19 for the reconstructed crates: no assumption about the interpolation is left. -/
theorem C19_reconstructed (E : Ext) (ty : PolyType) (data : List F64) (hlen : data.length ≤ 2 ^ 53)
    (hfin : AllFinite data) (hr : ∀ x ∈ data, InRange x)
    (x y : F64) (hx : x ∈ data) (hy : y ∈ data) (hxy : x.lt y = true) (e : F64) (bs : Bytes)
    (h : ty.comp.compress E.withInterp data = .ok bs ∨ ty.comp.compressBounded E.withInterp data e = .ok bs) (hall : StoresAll data bs) :
    ∃ out, ty.comp.decompress E.withInterp data.length bs = .ok out ∧ SameTo5Decimals data out ∧
      ∀ i (h1 : i < out.length) (h2 : i < data.length), FiveDecimals data[i] → (out[i]).val = (data[i]).val :=
  C19_stored_all _ (withInterp_interpolates E) ty data hlen hfin hr x y hx hy hxy e bs h hall


end Atsc
