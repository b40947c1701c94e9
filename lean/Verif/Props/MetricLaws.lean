import Verif.Lemmas.MapeZero
import Verif.Props.SmapeRange
import Verif.Spec.Dummy
/- C77, C78: argument order of the error metrics; what an error of zero means. -/
namespace Atsc
open FP

theorem sub_abs_comm (a b : F64) : (a.sub b).abs = (b.sub a).abs := by
  have na : a.neg.isNaN = a.isNaN := rfl
  have nb : b.neg.isNaN = b.isNaN := rfl
  have ia : a.neg.isInf = a.isInf := rfl
  have ib : b.neg.isInf = b.isInf := rfl
  have sa : a.neg.sign = !a.sign := rfl
  have sb : b.neg.sign = !b.sign := rfl
  have va : a.neg.scaled = -a.scaled := by
    unfold scaled; rw [sa]; have : a.neg.absVal = a.absVal := rfl
    rw [this]; cases a.sign <;> simp
  have vb : b.neg.scaled = -b.scaled := by
    unfold scaled; rw [sb]; have : b.neg.absVal = b.absVal := rfl
    rw [this]; cases b.sign <;> simp
  unfold FP.sub FP.add
  rw [na, nb, ia, ib, sa, sb, va, vb, Bool.or_comm b.isNaN]
  by_cases hn : (a.isNaN || b.isNaN) = true
  · rw [if_pos hn, if_pos hn]
  rw [if_neg hn, if_neg hn]
  by_cases hai : a.isInf = true <;> by_cases hbi : b.isInf = true
  · rw [if_pos hai, if_pos hbi, hai, hbi]
    have hm : a.mag = b.mag := by
      apply Fin.ext
      have h1 : a.mag.val = infMag 52 11 := by simpa [isInf] using hai
      have h2 : b.mag.val = infMag 52 11 := by simpa [isInf] using hbi
      rw [h1, h2]
    cases hsa : a.sign <;> cases hsb : b.sign <;> simp [FP.abs, hm]
  · rw [if_pos hai, if_neg hbi, if_pos hai, if_neg (by simp [hbi])]
    rfl
  · rw [if_neg hai, if_pos hbi, if_pos hbi, if_neg (by simp [hai])]
    rfl
  · rw [if_neg hai, if_neg hbi, if_neg hai, if_neg hbi]
    have e : b.scaled + -a.scaled = -(a.scaled + -b.scaled) := by ring
    rw [e]
    generalize a.scaled + -b.scaled = n
    by_cases h0 : n = 0
    · rw [if_pos h0, if_pos (by omega)]; rfl
    · rw [if_neg h0, if_neg (by omega), Int.natAbs_neg]; rfl

theorem fsq_abs (x : F64) : fsq x = fsq x.abs := by
  unfold fsq FP.mul
  have h1 : x.abs.isNaN = x.isNaN := rfl
  have h2 : x.abs.isInf = x.isInf := rfl
  have h3 : x.abs.absVal = x.absVal := rfl
  rw [h1, h2, h3, bne_self_eq_false, bne_self_eq_false]

theorem add_comm' (a b : F64) : a.add b = b.add a := by
  unfold FP.add
  rw [Bool.or_comm b.isNaN]
  by_cases hn : (a.isNaN || b.isNaN) = true
  · rw [if_pos hn, if_pos hn]
  rw [if_neg hn, if_neg hn]
  by_cases hai : a.isInf = true <;> by_cases hbi : b.isInf = true
  · rw [if_pos hai, if_pos hbi, hai, hbi]
    have hm : a.mag.val = b.mag.val := by
      have h1 : a.mag.val = infMag 52 11 := by simpa [isInf] using hai
      have h2 : b.mag.val = infMag 52 11 := by simpa [isInf] using hbi
      rw [h1, h2]
    by_cases hs : a.sign = b.sign
    · have : a = b := fp_ext hs hm
      rw [this]
    · rw [if_pos (by simpa using hs), if_pos (by simpa using fun h => hs h.symm)]
  · rw [if_pos hai, if_neg hbi, if_pos hai, if_neg (by simp [hbi])]
  · rw [if_neg hai, if_pos hbi, if_pos hbi, if_neg (by simp [hai])]
  · rw [if_neg hai, if_neg hbi, if_neg hai, if_neg hbi, Int.add_comm b.scaled, Bool.and_comm b.sign]

theorem zipWith_swap {f : F64 → F64 → F64} (hf : ∀ x y, f x y = f y x) : ∀ a b : List F64, List.zipWith f a b = List.zipWith f b a
  | [], [] => rfl
  | [], _ :: _ => rfl
  | _ :: _, [] => rfl
  | x :: a, y :: b => by rw [List.zipWith_cons_cons, List.zipWith_cons_cons, hf, zipWith_swap hf a b]

theorem smape_swap : ∀ (a b : List F64) (s : F64 × F64), (a.zip b).foldl smapeStep s = (b.zip a).foldl smapeStep s
  | [], [], _ => rfl
  | [], _ :: _, _ => rfl
  | _ :: _, [], _ => rfl
  | x :: a, y :: b, s => by
    rw [List.zip_cons_cons, List.zip_cons_cons, List.foldl_cons, List.foldl_cons]
    have : smapeStep s (x, y) = smapeStep s (y, x) := by
      unfold smapeStep
      simp only
      rw [Bool.and_comm, sub_abs_comm, add_comm' x.abs]
    rw [this, smape_swap]

/-- **C77**: the squared, the absolute and the symmetric percentage error do not depend on which series is the original: exchanging the arguments gives
the same bits, or the same panic. -/
theorem C77_swap (m : ErrorMethod) (hm : m = .mse ∨ m = .mae ∨ m = .smape) (a b : List F64) : m.error a b = m.error b a := by
  by_cases hl : a.length = b.length
  · rcases hm with rfl | rfl | rfl
    · simp only [ErrorMethod.error, errorMse]
      rw [if_neg (by simpa using hl), if_neg (by simpa using hl.symm), Nat.min_comm, zipWith_swap (fun x y => ?_)]
      rw [fsq_abs, sub_abs_comm, ← fsq_abs]
    · simp only [ErrorMethod.error, errorMae]
      rw [if_neg (by simpa using hl), if_neg (by simpa using hl.symm), hl, zipWith_swap (fun x y => ?_)]
      exact sub_abs_comm _ _
    · simp only [ErrorMethod.error, errorSmape]
      rw [if_neg (by simpa using hl), if_neg (by simpa using hl.symm), hl, smape_swap]
  · rcases hm with rfl | rfl | rfl
    · simp only [ErrorMethod.error, errorMse]
      rw [if_pos (by simpa using hl), if_pos (by simpa using fun h => hl h.symm)]
    · simp only [ErrorMethod.error, errorMae]
      rw [if_pos (by simpa using hl), if_pos (by simpa using fun h => hl h.symm)]
    · simp only [ErrorMethod.error, errorSmape]
      rw [if_pos (by simpa using hl), if_pos (by simpa using fun h => hl h.symm)]

/-- Three different series, exchanged. -/
example : ErrorMethod.error .mae [F64.lit 1, F64.lit 4] [F64.lit 2, F64.lit 2] = .ok ((F64.lit 3).div (F64.lit 2)) ∧
    ErrorMethod.error .mae [F64.lit 2, F64.lit 2] [F64.lit 1, F64.lit 4] = .ok ((F64.lit 3).div (F64.lit 2)) := by decide +kernel

/-- C77 refuted for the two metrics that divide by the original: 1 against 2 is an error of 100%, 2 against 1 one of 50% (squared: 25%). -/
theorem C77_refuted_relative : ErrorMethod.error .mape [F64.lit 1] [F64.lit 2] = .ok (F64.lit 1) ∧
    ErrorMethod.error .mape [F64.lit 2] [F64.lit 1] = .ok ((F64.lit 1).div (F64.lit 2)) ∧
    ErrorMethod.error .nmse [F64.lit 1] [F64.lit 2] = .ok (F64.lit 1) ∧
    ErrorMethod.error .nmse [F64.lit 2] [F64.lit 1] = .ok ((F64.lit 1).div (F64.lit 4)) := by decide +kernel

/-- **C78**: the error the compressors compute (MAPE) is 0 exactly when every sample is reproduced with its exact value and no sample is zero; there is no
rounding or underflow through which a difference could be reported as 0.  (The original is finite, as the cleaned data is; the reconstruction is
arbitrary.) -/
theorem C78_zero_iff (a b : List F64) (hl : a.length = b.length) (h1 : a ≠ []) (hlen : a.length ≤ 2 ^ 53) (hf : AllFinite a) :
    (∃ r, calculateError a b = .ok r ∧ r.feq FP.zero = true) ↔ SameValues b a ∧ ∀ x ∈ a, x.val ≠ 0 := by
  constructor
  · rintro ⟨r, hr, h0⟩
    have hle : r.le FP.zero = true := by
      obtain ⟨p1, p2, p3⟩ := feq_iff.1 h0
      exact le_iff.2 ⟨p1, p2, p3.le⟩
    have hs := mape_zero_exact hl hlen hf hr hle
    refine ⟨hs, fun x hx hx0 => ?_⟩
    obtain ⟨i, hi, rfl⟩ := List.getElem_of_mem hx
    have hb := hs.2 i (by omega) hi
    obtain ⟨r', e1, e2⟩ := C31_mape_nan_on_zero a b hl i hi (by omega) hx0 (hb.1.trans hx0) (hf _ hx) hb.2.1
    have : Except.ok r = Except.ok r' := hr.symm.trans e1
    obtain rfl := Except.ok.inj this
    have := (feq_iff.1 h0).1
    rw [e2] at this
    exact absurd this (by decide)
  · rintro ⟨hs, h0⟩
    refine ⟨FP.zero, ?_, by decide +kernel⟩
    unfold calculateError ErrorMethod.error errorMape
    simp only
    rw [if_neg (by simpa using hl), fsum_zeros, zero_div_len (List.length_pos_iff.2 h1)]
    intro x hx
    obtain ⟨i, hi, rfl⟩ := List.getElem_of_mem hx
    have hi' : i < a.length := by simp at hi; omega
    obtain ⟨v1, v2, v3⟩ := hs.2 i (by omega) hi'
    rw [List.getElem_zipWith]
    have hx0 := h0 _ (List.getElem_mem hi')
    have heq : b[i] = a[i] := by
      have hfe : (b[i]).feq a[i] = true :=
        feq_iff.2 ⟨isFinite_not_nan v2, isFinite_not_nan v3, (val_eq_iff (by decide)).1 v1⟩
      rcases (feq_iff_eq_or_zero (isFinite_not_nan v2) (isFinite_not_nan v3)).1 hfe with h | ⟨-, h⟩
      · exact h
      · exfalso
        exact absVal_ne_zero_of_val hx0 h
    rw [heq, sub_self_zero v3]
    exact (zero_div_abs (isFinite_not_nan v3) (absVal_ne_zero_of_val hx0)).1

/-- An exact reproduction, and one that is off by the last bit: the error is then not 0. -/
example : calculateError [F64.lit 3, F64.lit 5] [F64.lit 3, F64.lit 5] = .ok FP.zero := by decide +kernel
example : okAnd (calculateError [F64.lit (10 ^ 300), F64.lit 5] [F64.lit (10 ^ 300 + 10 ^ 285), F64.lit 5]) (fun r => (FP.zero : F64).lt r) = true := by
  decide +kernel

/-- C77 refuted: the other four metrics can be 0 although the series differ: a difference of the smallest float is lost in the division by the count, in
the square, or against a large total. -/
theorem C77_refuted_zero :
    (ErrorMethod.error .mae [F64.lit 0, F64.lit 0] [FP.ofBits 1, F64.lit 0] = .ok FP.zero) ∧
    (ErrorMethod.error .mse [F64.lit 0] [FP.ofBits 1] = .ok FP.zero) ∧
    (ErrorMethod.error .nmse [F64.lit 0, F64.lit 1] [FP.ofBits 1, F64.lit 1] = .ok FP.zero) ∧
    (ErrorMethod.error .smape [F64.lit 0, F64.lit (10 ^ 300)] [FP.ofBits 1, F64.lit (10 ^ 300)] = .ok FP.zero) := by decide +kernel
end Atsc
