import Verif.Lemmas.FloatMono
import Verif.Props.Accuracy
/- C68: range and scale of the SMAPE metric. -/
namespace Atsc
open FP

/-- Magnitude and sign of a sum of non-negative floats (infinities included). -/
theorem add_nonneg_mag {a c : F64} (ha : a.isNaN = false) (hc : c.isNaN = false) (sa : a.sign = false) (sc : c.sign = false) :
    (a.add c).sign = false ∧ (a.add c).mag.val = min (roundPat 52 (a.absVal + c.absVal) 1) (infMag 52 11) := by
  have la := mag_le_inf ha
  have lc := mag_le_inf hc
  have hinf : ∀ x : F64, x.isInf = true → ∀ k, x.absVal ≤ k → infMag 52 11 ≤ roundPat 52 k 1 := by
    intro x hx k hk
    have hm : x.mag.val = infMag 52 11 := by simpa [isInf] using hx
    have h1 : roundPat 52 (magVal 52 (infMag 52 11)) 1 ≤ roundPat 52 k 1 := by
      apply roundPat_mono (by norm_num) (by norm_num)
      rw [mul_one, mul_one, ← hm]; exact hk
    rw [roundPat_one_magVal] at h1
    exact h1
  unfold FP.add
  rw [ha, hc]
  simp only [Bool.or_self, Bool.false_eq_true, if_false, sa, sc, bne_self_eq_false, Bool.and_false]
  by_cases hai : a.isInf = true
  · rw [if_pos hai]
    refine ⟨sa, ?_⟩
    have := hinf a hai (a.absVal + c.absVal) (by omega)
    have hm : a.mag.val = infMag 52 11 := by simpa [isInf] using hai
    rw [hm]; omega
  · rw [if_neg hai]
    by_cases hci : c.isInf = true
    · rw [if_pos hci]
      refine ⟨sc, ?_⟩
      have := hinf c hci (a.absVal + c.absVal) (by omega)
      have hm : c.mag.val = infMag 52 11 := by simpa [isInf] using hci
      rw [hm]; omega
    · rw [if_neg hci, scaled_pos_sign sa, scaled_pos_sign sc]
      split_ifs with h0
      · refine ⟨rfl, ?_⟩
        have : a.absVal + c.absVal = 0 := by omega
        rw [this, ofPat_mag]
        have : roundPat 52 0 1 = 0 := by decide +kernel
        rw [this]
      · refine ⟨?_, ?_⟩
        · rw [ofRound_sign, decide_eq_false]; omega
        · simp only [ofRound, ofPat_mag]
          rw [← Int.natCast_add, Int.natAbs_natCast]

theorem nan_of_mag {x : F64} (h : x.mag.val ≤ infMag 52 11) : x.isNaN = false := by
  unfold FP.isNaN; rw [decide_eq_false]; omega

/-- `u` and `d` are non-negative and not NaN, and `u ≤ d`. -/
def Below (u d : F64) : Prop := u.isNaN = false ∧ d.isNaN = false ∧ u.sign = false ∧ d.sign = false ∧ u.mag.val ≤ d.mag.val

theorem below_add {a b c d : F64} (h : Below a b) (h' : Below c d) : Below (a.add c) (b.add d) := by
  obtain ⟨na, nb, sa, sb, hab⟩ := h
  obtain ⟨nc, nd, sc, sd, hcd⟩ := h'
  obtain ⟨s1, m1⟩ := add_nonneg_mag na nc sa sc
  obtain ⟨s2, m2⟩ := add_nonneg_mag nb nd sb sd
  have := absVal_le_of_mag hab
  have := absVal_le_of_mag hcd
  have hm : roundPat 52 (a.absVal + c.absVal) 1 ≤ roundPat 52 (b.absVal + d.absVal) 1 :=
    roundPat_mono (by norm_num) (by norm_num) (by omega)
  exact ⟨nan_of_mag (by omega), nan_of_mag (by omega), s1, s2, by omega⟩

theorem below_term {x y : F64} (hx : x.isFinite = true) (hy : y.isFinite = true) : Below (y.sub x).abs (x.abs.add y.abs) := by
  obtain ⟨s2, m2⟩ := add_nonneg_mag (a := x.abs) (c := y.abs) (isFinite_not_nan hx) (isFinite_not_nan hy) rfl rfl
  have hm : (y.sub x).abs.mag.val ≤ min (roundPat 52 (x.absVal + y.absVal) 1) (infMag 52 11) := by
    show (y.add x.neg).mag.val ≤ _
    have hx' : x.neg.isFinite = true := hx
    unfold FP.add
    rw [isFinite_not_nan hy, isFinite_not_nan hx', isFinite_not_inf hy, isFinite_not_inf hx']
    simp only [Bool.or_self, Bool.false_eq_true, if_false]
    split_ifs with h0
    · rw [ofPat_mag]; omega
    · simp only [ofRound, ofPat_mag]
      have h1 : (y.scaled + x.neg.scaled).natAbs ≤ x.absVal + y.absVal := by
        refine le_trans (Int.natAbs_add_le _ _) ?_
        rw [scaled_natAbs, scaled_natAbs]
        have : x.neg.absVal = x.absVal := rfl
        omega
      have := roundPat_mono (mb := 52) (q := 1) (q' := 1) (by norm_num) (by norm_num) (p := (y.scaled + x.neg.scaled).natAbs) (p' := x.absVal + y.absVal) (by omega)
      omega
  have e1 : x.abs.absVal = x.absVal := rfl
  have e2 : y.abs.absVal = y.absVal := rfl
  rw [e1, e2] at m2
  exact ⟨nan_of_mag (by omega), nan_of_mag (by omega), rfl, s2, by omega⟩

theorem smape_below (l : List (F64 × F64)) (hl : ∀ p ∈ l, p.1.isFinite = true ∧ p.2.isFinite = true) :
    ∀ s : F64 × F64, Below s.1 s.2 → Below (l.foldl smapeStep s).1 (l.foldl smapeStep s).2 := by
  induction l with
  | nil => intro s h; exact h
  | cons p l ih =>
    intro s h
    rw [List.foldl_cons]
    apply ih fun q hq => hl q (by simp [hq])
    unfold smapeStep
    split_ifs
    · exact h
    · exact below_add h (below_term (hl p (by simp)).1 (hl p (by simp)).2)

/-- A number in `[0, 1]`. -/
def Unit01 (r : F64) : Prop := (FP.zero : F64).le r = true ∧ r.le (F64.lit 1) = true

theorem unit01_of {r : F64} (hs : r.sign = false) (hm : r.mag.val ≤ (F64.lit 1).mag.val) : Unit01 r := by
  have hl1 : (F64.lit 1).mag.val ≤ infMag 52 11 := by decide +kernel
  have hn : r.isNaN = false := nan_of_mag (by omega)
  have h1 : r.scaled = r.absVal := scaled_pos_sign hs
  have h2 : (F64.lit 1).scaled = (F64.lit 1).absVal := scaled_pos_sign (by decide +kernel)
  have h3 := absVal_le_of_mag hm
  constructor
  · unfold FP.le
    have hz : (FP.zero : F64).isNaN = false := by decide +kernel
    have hz' : (FP.zero : F64).scaled = 0 := by decide +kernel
    rw [hz, hn, hz', h1]
    simp
  · unfold FP.le
    have hz : (F64.lit 1).isNaN = false := by decide +kernel
    rw [hz, hn, h2, h1]
    simpa using h3

theorem ratio_unit {U D : F64} (h : Below U D) : (U.div D).isNaN = true ∨ ((U.div D).sign = false ∧ (U.div D).mag.val ≤ (F64.lit 1).mag.val) := by
  obtain ⟨nU, nD, sU, sD, hm⟩ := h
  have lU := mag_le_inf nU
  have lD := mag_le_inf nD
  unfold FP.div
  rw [nU, nD]
  simp only [Bool.or_self, Bool.false_eq_true, if_false, sU, sD, bne_self_eq_false]
  by_cases hUi : U.isInf = true
  · have hDi : D.isInf = true := by
      have h1 : U.mag.val = infMag 52 11 := by simpa [isInf] using hUi
      unfold FP.isInf; rw [decide_eq_true_eq]; omega
    rw [if_pos hUi, if_pos hDi]
    left; decide +kernel
  · rw [if_neg hUi]
    by_cases hDi : D.isInf = true
    · rw [if_pos hDi]
      right; exact ⟨rfl, by rw [ofPat_mag]; omega⟩
    · rw [if_neg hDi]
      have hle := absVal_le_of_mag hm
      by_cases hD0 : D.absVal = 0
      · have hU0 : U.absVal = 0 := by omega
        rw [if_pos hD0, if_pos hU0]
        left; decide +kernel
      · rw [if_neg hD0]
        right
        refine ⟨ofRound_sign _ _ _, ?_⟩
        have h1 : (ofRound false (2 ^ qexp 52 11) 1 : F64) = F64.lit 1 := by decide +kernel
        rw [← h1]
        apply mag_ofRound_le (Nat.pos_of_ne_zero hD0) (by norm_num)
        rw [mul_one, mul_comm]
        exact Nat.mul_le_mul_left _ hle

theorem lit_pos {n : Nat} (h1 : 1 ≤ n) (h2 : n ≤ 2 ^ 53) :
    (F64.lit (n : Nat)).isFinite = true ∧ (F64.lit (n : Nat)).sign = false ∧ 2 ^ qexp 52 11 ≤ (F64.lit (n : Nat)).absVal := by
  have hf := (F64.lit_exact (n := (n : Int)) (by rw [Int.natAbs_natCast]; exact h2))
  have hv : (F64.lit (n : Nat)).val = n := by
    rw [lit_val' (by rw [Int.natAbs_natCast]; exact h2)]; simp
  have hs : (F64.lit (n : Nat)).sign = false := by
    by_contra hs
    rw [Bool.not_eq_false] at hs
    rw [val_sgn (by decide), hs] at hv
    have : sgn true = -1 := rfl
    rw [this] at hv
    have h0 : (0 : ℚ) ≤ ((F64.lit (n : Nat)).absVal : ℚ) / 2 ^ qexp 52 11 := div_nonneg (Nat.cast_nonneg _) (qpow_posQ 52 11).le
    have : (1 : ℚ) ≤ n := by exact_mod_cast h1
    linarith
  refine ⟨hf.2, hs, ?_⟩
  rw [val_sgn (by decide), hs] at hv
  have h1' : sgn false = 1 := rfl
  rw [h1', one_mul, div_eq_iff (qpow_posQ 52 11).ne'] at hv
  have h3 : (F64.lit (n : Nat)).absVal = n * 2 ^ qexp 52 11 := by exact_mod_cast hv
  rw [h3]
  exact Nat.le_mul_of_pos_left _ h1

/-- C68: whatever the finite inputs (overflowing sums included), the SMAPE metric is NaN or a number between 0 and 1. -/
theorem C68_range (o g : List F64) (hl : o.length = g.length) (hn : o.length ≤ 2 ^ 53) (ho : ∀ x ∈ o, x.isFinite = true) (hg : ∀ x ∈ g, x.isFinite = true) :
    ∃ r, errorSmape o g = .ok r ∧ (r.isNaN = true ∨ Unit01 r) := by
  by_cases hne : o.length = 0
  · rw [List.length_eq_zero_iff.1 hne] at hl ⊢
    rw [List.length_eq_zero_iff.1 hl.symm]
    exact ⟨_, rfl, .inl (by decide +kernel)⟩
  refine ⟨_, by unfold errorSmape; rw [if_neg (by omega)], ?_⟩
  have hb := smape_below (o.zip g) (fun p hp => ⟨ho _ (zip_mem_left hp).1, hg _ (zip_mem_left hp).2⟩) (FP.zero, FP.zero)
    ⟨by decide +kernel, by decide +kernel, rfl, rfl, le_rfl⟩
  generalize (o.zip g).foldl smapeStep (FP.zero, FP.zero) = s at hb ⊢
  have hNaN : ∀ x y : F64, x.isNaN = true → (x.div y).isNaN = true := by
    intro x y h; unfold FP.div; rw [h]; simp only [Bool.true_or, if_true]; decide +kernel
  rcases ratio_unit hb with h | ⟨hs, hm⟩
  · left; exact hNaN _ _ h
  · generalize s.1.div s.2 = q at hs hm ⊢
    have hl1 : (F64.lit 1).mag.val < infMag 52 11 := by decide +kernel
    have qn : q.isNaN = false := nan_of_mag (by omega)
    have qi : q.isInf = false := by unfold FP.isInf; rw [decide_eq_false]; omega
    rcases Nat.eq_zero_or_pos o.length with h0 | h1
    · exact absurd h0 hne
    · right
      obtain ⟨lf, ls, la⟩ := lit_pos h1 hn
      unfold FP.div
      rw [qn, qi, isFinite_not_nan lf, isFinite_not_inf lf]
      simp only [Bool.or_self, Bool.false_eq_true, if_false]
      have hp : (0 : Nat) < 2 ^ qexp 52 11 := Nat.two_pow_pos _
      rw [if_neg (by omega)]
      apply unit01_of
      · rw [ofRound_sign, hs, ls]; rfl
      · have h1 : (ofRound false (2 ^ qexp 52 11) 1 : F64) = F64.lit 1 := by decide +kernel
        rw [← h1]
        apply mag_ofRound_le (by omega) (by norm_num)
        have hq := absVal_le_of_mag hm
        have h2 : (F64.lit 1).absVal = 2 ^ qexp 52 11 := by decide +kernel
        rw [h2] at hq
        clear h1 h2 hp
        generalize 2 ^ qexp 52 11 = W at *
        rw [mul_one, mul_comm]
        exact Nat.mul_le_mul_left _ (le_trans hq la)

/-- The result can be NaN although all samples are finite: the two sums overflow, or every pair is zero. -/
example : errorSmape [FP.zero] [FP.zero] = .ok FP.nan := by decide +kernel
/-- Two samples, both entirely missed. -/
example : errorSmape [F64.lit 3, F64.lit 5] [F64.lit 0, F64.lit 0] = .ok ((F64.lit 1).div (F64.lit 2)) := by decide +kernel

theorem fp_ext {a b : F64} (hs : a.sign = b.sign) (hm : a.mag.val = b.mag.val) : a = b := by
  cases a; cases b
  simp only at hs hm
  rw [hs, Fin.ext hm]

theorem absVal_zero_of {z : F64} (h : z.val = 0) : z.absVal = 0 := by
  by_contra h0; exact absVal_ne_zero_iff.1 h0 h

/-- C68: one sample, entirely missed, is reported as exactly 1 (100% error). -/
theorem C68_single (x z : F64) (hx : x.isFinite = true) (hx0 : x.val ≠ 0) (hz : z.isFinite = true) (hz0 : z.val = 0) :
    errorSmape [x] [z] = .ok (F64.lit 1) := by
  have hxa : x.absVal ≠ 0 := absVal_ne_zero_iff.2 hx0
  have hza := absVal_zero_of hz0
  have hfe : x.feq FP.zero = false := by
    by_contra h
    rw [Bool.not_eq_false] at h
    exact hx0 (feq_zero_val h)
  have hxl : x.mag.val ≤ infMag 52 11 := mag_le_inf (isFinite_not_nan hx)
  have hxr : roundPat 52 x.absVal 1 = x.mag.val := roundPat_one_magVal 52 _
  -- both terms equal the magnitude of the sample
  have hup : (z.sub x).abs.mag.val = x.mag.val := by
    show (z.add x.neg).mag.val = _
    have hx' : x.neg.isFinite = true := hx
    unfold FP.add
    rw [isFinite_not_nan hz, isFinite_not_nan hx', isFinite_not_inf hz, isFinite_not_inf hx']
    simp only [Bool.or_self, Bool.false_eq_true, if_false]
    have h0 : z.scaled = 0 := by have := scaled_natAbs z; omega
    have h1 : x.neg.scaled.natAbs = x.absVal := scaled_natAbs x.neg
    rw [h0, zero_add, if_neg (by omega)]
    simp only [ofRound, ofPat_mag, h1, hxr]
    omega
  have hdn := add_nonneg_mag (a := x.abs) (c := z.abs) (isFinite_not_nan hx) (isFinite_not_nan hz) rfl rfl
  have e1 : x.abs.absVal = x.absVal := rfl
  have e2 : z.abs.absVal = z.absVal := rfl
  rw [e1, e2, hza, add_zero, hxr, min_eq_left hxl] at hdn
  have h0 : ∀ t : F64, t.sign = false → t.mag.val = x.mag.val → (FP.zero : F64).add t = x.abs := by
    intro t ts tm
    have hz0 : (FP.zero : F64).isNaN = false := by decide +kernel
    obtain ⟨s, m⟩ := add_nonneg_mag hz0 (nan_of_mag (by omega)) rfl ts
    have ht : t.absVal = x.absVal := by unfold FP.absVal; rw [tm]
    have hzz : (FP.zero : F64).absVal = 0 := by decide +kernel
    rw [hzz, zero_add, ht, hxr, min_eq_left hxl] at m
    exact fp_ext (by rw [s]; rfl) (by rw [m]; rfl)
  have hstep : smapeStep (FP.zero, FP.zero) (x, z) = (x.abs, x.abs) := by
    unfold smapeStep
    rw [hfe, Bool.and_false, if_neg (by decide), h0 _ rfl hup, h0 _ hdn.1 hdn.2]
  have hq : x.abs.div x.abs = F64.lit 1 := by
    have hx' : x.abs.isFinite = true := hx
    unfold FP.div
    rw [isFinite_not_nan hx', isFinite_not_inf hx']
    simp only [Bool.or_self, Bool.false_eq_true, if_false]
    rw [e1, if_neg hxa, bne_self_eq_false]
    have h1 : (ofRound false (2 ^ qexp 52 11) 1 : F64) = F64.lit 1 := by decide +kernel
    rw [← h1]
    refine fp_ext (by rw [ofRound_sign, ofRound_sign]) (le_antisymm ?_ ?_)
    · exact mag_ofRound_le (Nat.pos_of_ne_zero hxa) (by norm_num) (by rw [mul_one, mul_comm])
    · exact mag_ofRound_le (by norm_num) (Nat.pos_of_ne_zero hxa) (by rw [mul_one, mul_comm])
  unfold errorSmape
  rw [if_neg (by simp)]
  simp only [List.zip_cons_cons, List.zip_nil_right, List.foldl_cons, List.foldl_nil, hstep, hq, List.length_singleton]
  have hone : (F64.lit 1).div (F64.lit ((1 : Nat) : Int)) = F64.lit 1 := by decide +kernel
  rw [hone]

/-- C68 refuted: a reconstruction that loses everything is reported as (nearly) `1 / n`, not as 1. -/
theorem C68_refuted_full_error (o : List F64) (h2 : o.length ≤ 2 ^ 47) (ho : Moderate o) (hne : ∃ x ∈ o, x.val ≠ 0) :
    ∃ r, errorSmape o (List.replicate o.length FP.zero) = .ok r ∧ Close (16 * o.length + 10) r (1 / o.length) := by
  have hl : o.length = (List.replicate o.length (FP.zero : F64)).length := by simp
  have h1 : 1 ≤ o.length := by obtain ⟨x, hx, -⟩ := hne; exact List.length_pos_of_mem hx
  have hg : Moderate (List.replicate o.length (FP.zero : F64)) := by
    intro x hx
    rw [List.eq_of_mem_replicate hx]
    refine ⟨zero_val.2, ?_⟩
    rw [zero_val.1, abs_zero]
    exact (pow_pos (by norm_num) _).le
  obtain ⟨r, hr, hc⟩ := C67_smape o _ hl h1 h2 ho hg (.inl hne)
  refine ⟨r, hr, ?_⟩
  have : exactSmape o (List.replicate o.length FP.zero) = 1 / o.length := by
    unfold exactSmape
    have e1 : ∀ l : List F64, List.zipWith (fun x y : F64 => |y.val - x.val|) l (List.replicate l.length FP.zero) = l.map fun x => |x.val| := by
      intro l
      induction l with
      | nil => rfl
      | cons a l ih => rw [List.length_cons, List.replicate_succ, List.zipWith_cons_cons, ih, List.map_cons, zero_val.1, zero_sub, abs_neg]
    have e2 : ∀ l : List F64, List.zipWith (fun x y : F64 => |x.val| + |y.val|) l (List.replicate l.length FP.zero) = l.map fun x => |x.val| := by
      intro l
      induction l with
      | nil => rfl
      | cons a l ih => rw [List.length_cons, List.replicate_succ, List.zipWith_cons_cons, ih, List.map_cons, zero_val.1, abs_zero, add_zero]
    rw [e1, e2, div_self]
    obtain ⟨x, hx, hx0⟩ := hne
    apply ne_of_gt
    refine lt_of_lt_of_le (abs_pos.2 hx0) (List.single_le_sum ?_ _ (List.mem_map.2 ⟨x, hx, rfl⟩))
    intro v hv
    obtain ⟨q, _, rfl⟩ := List.mem_map.1 hv
    exact abs_nonneg _
  rw [← this]; exact hc

/-- So with two or more samples the reported error of a total loss is below 0.51. -/
theorem C68_refuted_scale (o : List F64) (h1 : 2 ≤ o.length) (h2 : o.length ≤ 2 ^ 40) (ho : Moderate o) (hne : ∃ x ∈ o, x.val ≠ 0) :
    ∃ r, errorSmape o (List.replicate o.length FP.zero) = .ok r ∧ r.isFinite = true ∧ r.val ≤ 51 / 100 := by
  obtain ⟨r, hr, hf, hc⟩ := C68_refuted_full_error o (le_trans h2 (by norm_num)) ho hne
  refine ⟨r, hr, hf, ?_⟩
  have h3 := (abs_le.1 hc).2
  have hn : (2 : ℚ) ≤ o.length := by exact_mod_cast h1
  have hn2 : (o.length : ℚ) ≤ 1099511627776 := by exact_mod_cast le_trans h2 (by norm_num)
  have hz : (1 : ℚ) / 2 ^ 1070 ≤ 1 / 2 ^ 10 := tiny_le (by norm_num)
  have h4 : (1 : ℚ) / o.length ≤ 1 / 2 := one_div_le_one_div_of_le (by norm_num) hn
  have h5 : (16 * (o.length : ℚ) + 10) / 2 ^ 53 ≤ 1 / 100 := by
    rw [div_le_iff₀ (by norm_num)]; norm_num; linarith
  have h6 : (16 * (o.length : ℚ) + 10) / 2 ^ 53 * (1 / o.length) ≤ 1 / 100 * (1 / 2) := mul_le_mul h5 h4 (by positivity) (by norm_num)
  generalize (1 : ℚ) / 2 ^ 1070 = z at *
  norm_num at hz
  linarith

end Atsc
