import Verif.Props.Simple
import Verif.Lemmas.MeanErr
import Verif.Spec.Metrics
/- C90: the average, the fractional flag and the recommended type of the chunk statistics. -/
namespace Atsc
open FP

/-! ### The average -/

/-- The average of the samples, computed exactly. -/
def exactMean (l : List F64) : ℚ := (l.map FP.val).sum / l.length
/-- The average magnitude. -/
def meanMagnitude (l : List F64) : ℚ := (l.map fun x => |x.val|).sum / l.length

theorem acc_sum : ∀ (l : List F64) (acc : StatsAcc), (l.foldl StatsAcc.step acc).sum = l.foldl FP.add acc.sum
  | [], _ => rfl
  | x :: l, acc => by rw [List.foldl_cons, List.foldl_cons, acc_sum l]; rfl

/-- Adding up signed floats: `v` is the exact value the accumulator stands for, `M` bounds the magnitudes of everything added. -/
theorem fold_add_err {M : ℚ} (hM : M ≤ 2 ^ 1000) : ∀ (l : List F64) (acc : F64) (v : ℚ) (c : Nat), acc.isFinite = true → AllFinite l →
    |v| + (l.map fun x => |x.val|).sum ≤ M → |acc.val - v| ≤ 2 * c * u64 * M → c + l.length ≤ 2 ^ 50 →
    (l.foldl FP.add acc).isFinite = true ∧ |(l.foldl FP.add acc).val - (v + (l.map FP.val).sum)| ≤ 2 * (c + l.length : Nat) * u64 * M := by
  intro l
  induction l with
  | nil =>
    intro acc v c h1 _ _ h4 _
    simpa using ⟨h1, h4⟩
  | cons x l ih =>
    intro acc v c h1 h2 h3 h4 h5
    rw [List.map_cons, List.sum_cons] at h3
    rw [List.length_cons] at h5
    have hx := h2 x (by simp)
    have hs : 0 ≤ (l.map fun x : F64 => |x.val|).sum := List.sum_nonneg (by
      intro y hy; obtain ⟨z, _, rfl⟩ := List.mem_map.1 hy; exact abs_nonneg _)
    have hM0 : 0 ≤ M := by
      have := abs_nonneg v; have := abs_nonneg x.val
      linarith
    have hc : (c : ℚ) ≤ 2 ^ 50 := by exact_mod_cast (by omega : c ≤ 2 ^ 50)
    have hu := u64_pos
    have hcu : 2 * (c : ℚ) * u64 ≤ 1 := by have := u64_small; nlinarith
    have hcM : 2 * (c : ℚ) * u64 * M ≤ 1 * M := mul_le_mul_of_nonneg_right hcu hM0
    have hvx : |v + x.val| ≤ M := by
      have := abs_add_le v x.val
      linarith
    have hax : |acc.val + x.val| ≤ 2 * M := by
      have e : acc.val + x.val = (acc.val - v) + (v + x.val) := by ring
      rw [e]
      refine le_trans (abs_add_le _ _) ?_
      linarith
    have hbig : |acc.val + x.val| ≤ 2 ^ 1023 := by
      refine le_trans hax (le_trans (mul_le_mul_of_nonneg_left hM (by norm_num)) ?_)
      rw [← pow_succ']
      exact qpow_le (by norm_num)
    obtain ⟨a1, a2⟩ := add_rel h1 hx hbig
    have step := ih (acc.add x) (v + x.val) (c + 1) a1 (fun y hy => h2 y (by simp [hy])) (by
      have := abs_add_le v x.val
      linarith) (by
      have e : (acc.add x).val - (v + x.val) = ((acc.add x).val - (acc.val + x.val)) + (acc.val - v) := by ring
      rw [e]
      refine le_trans (abs_add_le _ _) ?_
      have h6 : u64 * |acc.val + x.val| ≤ u64 * (2 * M) := mul_le_mul_of_nonneg_left hax hu.le
      push_cast
      clear hbig hM
      linarith) (by omega)
    rw [List.foldl_cons, List.map_cons, List.sum_cons, List.length_cons]
    rw [show c + 1 + l.length = c + (l.length + 1) by omega] at step
    rw [← add_assoc]
    exact step

/-- C90: the reported mean is the average of the samples up to float rounding, relative to the average magnitude. -/
theorem C90_mean (data : List F64) (hne : data ≠ []) (hlen : data.length ≤ 2 ^ 50) (hm : Moderate data) :
    ∃ st, DataStats.new data = .ok st ∧ st.mean.isFinite = true ∧
      |st.mean.val - exactMean data| ≤ (2 * data.length + 2) / 2 ^ 53 * meanMagnitude data + 1 / 2 ^ 1070 := by
  have h1 : 1 ≤ data.length := List.length_pos_of_ne_nil hne
  obtain ⟨st, hst⟩ := stats_ok hne
  refine ⟨st, hst, ?_⟩
  have hmean : st.mean = (data.foldl FP.add FP.zero).div (F64.lit (data.length : Nat)) := by
    cases data with
    | nil => exact absurd rfl hne
    | cons d0 r =>
      have := Except.ok.inj hst
      rw [← this]
      show (((d0 :: r).foldl StatsAcc.step _).sum.div _) = _
      rw [acc_sum]
  set M := (data.map fun x : F64 => |x.val|).sum with hMdef
  have hM0 : 0 ≤ M := List.sum_nonneg (by
    intro y hy; obtain ⟨z, _, rfl⟩ := List.mem_map.1 hy; exact abs_nonneg _)
  have hk : (data.length : ℚ) ≤ 2 ^ 50 := by exact_mod_cast hlen
  have hk1 : (1 : ℚ) ≤ data.length := by exact_mod_cast h1
  have hM : M ≤ 2 ^ 450 := by
    have : ∀ l : List F64, Moderate l → (l.map fun x : F64 => |x.val|).sum ≤ l.length * 2 ^ 400 := by
      intro l
      induction l with
      | nil => intro _; simp
      | cons x l ih =>
        intro hl
        rw [List.map_cons, List.sum_cons, List.length_cons]
        have i1 := ih (fun y hy => hl y (by simp [hy]))
        have i2 := (hl x (by simp)).2
        push_cast
        rw [add_mul, one_mul, add_comm]
        exact add_le_add i1 i2
    refine le_trans (this data hm) ?_
    rw [show (2 : ℚ) ^ 450 = 2 ^ 50 * 2 ^ 400 by rw [← pow_add]]
    exact mul_le_mul_of_nonneg_right hk (pow_pos (by norm_num) _).le
  have hz : (FP.zero : F64).val = 0 ∧ (FP.zero : F64).isFinite = true := by
    refine ⟨?_, by decide⟩
    rw [val_eq (by decide)]
    have : (FP.zero : F64).scaled = 0 := by decide +kernel
    rw [this]; simp
  obtain ⟨f1, f2⟩ := fold_add_err (M := M) (le_trans hM (qpow_le (by norm_num))) data FP.zero 0 0 hz.2 (fun x hx => (hm x hx).1)
    (by rw [abs_zero, zero_add]) (by rw [hz.1]; simp) (by omega)
  rw [zero_add, Nat.zero_add] at f2
  have hlitn : ((data.length : Nat) : Int).natAbs ≤ 2 ^ 53 := by
    rw [Int.natAbs_natCast]; exact le_trans hlen (Nat.pow_le_pow_right (by norm_num) (by norm_num))
  have hlit : (F64.lit (data.length : Nat)).val = data.length := by
    rw [lit_val' hlitn]; simp
  have hlitf := (lit_val hlitn).1
  rw [hmean]
  set S := data.foldl FP.add FP.zero with hS
  have hu := u64_pos
  have hku : 2 * (data.length : ℚ) * u64 ≤ 1 / 2 := by have := u64_small; nlinarith
  have hT : |(data.map FP.val).sum| ≤ M := by
    rw [hMdef]
    clear hS f1 f2 hM hM0 hMdef
    have : ∀ l : List F64, |(l.map FP.val).sum| ≤ (l.map fun x : F64 => |x.val|).sum := by
      intro l
      induction l with
      | nil => simp
      | cons x l ih =>
        rw [List.map_cons, List.sum_cons, List.map_cons, List.sum_cons]
        exact le_trans (abs_add_le _ _) (add_le_add le_rfl ih)
    exact this data
  have hSb : |S.val| ≤ 2 * M := by
    have e : S.val = (S.val - (data.map FP.val).sum) + (data.map FP.val).sum := by ring
    rw [e]
    refine le_trans (abs_add_le _ _) ?_
    have : 2 * (data.length : ℚ) * u64 * M ≤ 1 / 2 * M := mul_le_mul_of_nonneg_right hku hM0
    clear hM
    linarith
  have hq : |S.val / (F64.lit (data.length : Nat)).val| ≤ 2 * M / data.length := by
    rw [hlit, abs_div, abs_of_pos (show (0 : ℚ) < data.length by linarith)]
    exact div_le_div_of_nonneg_right hSb (by linarith)
  have hq2 : |S.val / (F64.lit (data.length : Nat)).val| ≤ 2 ^ 1023 := by
    refine le_trans hq (le_trans (div_le_self (by linarith) hk1) ?_)
    refine le_trans (mul_le_mul_of_nonneg_left hM (by norm_num)) ?_
    rw [← pow_succ']
    exact qpow_le (by norm_num)
  obtain ⟨d1, d2⟩ := div_err f1 hlitf (by rw [hlit]; linarith) hq2
  refine ⟨d1, ?_⟩
  have d3 := le_trans d2 (ulpErr_le _)
  rw [hlit] at d3 hq
  unfold exactMean meanMagnitude
  rw [← hMdef]
  have ht : (1 : ℚ) / 2 ^ 1075 ≤ 1 / 2 ^ 1070 := one_div_le_one_div_of_le (pow_pos (by norm_num) _) (qpow_le (by norm_num))
  clear hM hq2 hm d2
  generalize (S.div (F64.lit (data.length : Nat))).val = R at *
  generalize (1 : ℚ) / 2 ^ 1075 = z at *
  generalize (1 : ℚ) / 2 ^ 1070 = z' at *
  have e1 : |S.val / data.length - (data.map FP.val).sum / data.length| ≤ 2 * u64 * M := by
    rw [← sub_div, abs_div, abs_of_pos (show (0 : ℚ) < data.length by linarith), div_le_iff₀ (by linarith)]
    refine le_trans f2 (le_of_eq ?_)
    ring
  have e2 : |S.val / data.length| / 2 ^ 53 ≤ u64 * (2 * M / data.length) := by
    unfold u64
    rw [one_div, inv_mul_eq_div]
    exact div_le_div_of_nonneg_right hq (by positivity)
  have e3 : (2 * (data.length : ℚ) + 2) / 2 ^ 53 * (M / data.length) = 2 * u64 * M + u64 * (2 * M / data.length) := by
    unfold u64
    have : (data.length : ℚ) ≠ 0 := by linarith
    field_simp
  rw [e3]
  refine le_trans (abs_sub_le _ (S.val / data.length) _) ?_
  linarith

/-! ### Whole numbers -/

theorem splitN_of_int {x : F64} (hx : SplitSafe x) {n : Int} (h : IsInt x n) : (splitN x).2.feq FP.zero = true := by
  have hexp := hx.exp
  have habs : x.absVal = n.natAbs * 2 ^ qexp 52 11 := by
    rw [← scaled_natAbs, h, Int.natAbs_mul, Int.natAbs_natCast]
  unfold absVal at habs
  rw [splitN_eq]
  have hq : qexp 52 11 = 1074 := by decide
  obtain ⟨K, hK⟩ : ∃ K, K = 1074 := ⟨_, rfl⟩
  rw [hq, ← hK] at habs
  rcases hexp with h0 | ⟨h1, h2⟩
  · rw [h0]
    simp only [Nat.zero_div, Nat.zero_mod]
    unfold splitCore
    cases x.sign <;> decide +kernel
  · rw [magVal_normal (by omega)] at habs
    have hmlt : x.mag.val % 2 ^ 52 < 2 ^ 52 := Nat.mod_lt _ (Nat.two_pow_pos _)
    generalize x.mag.val / 2 ^ 52 = e at *
    generalize x.mag.val % 2 ^ 52 = m at *
    generalize x.sign = s at *
    by_cases c1 : e ≤ 1011
    · exfalso
      have hlt : (m + 2 ^ 52) * 2 ^ (e - 1) < 2 ^ K := by
        calc (m + 2 ^ 52) * 2 ^ (e - 1) < 2 ^ 53 * 2 ^ (e - 1) := Nat.mul_lt_mul_of_pos_right (by omega) (Nat.two_pow_pos _)
          _ = 2 ^ (53 + (e - 1)) := by rw [← pow_add]
          _ ≤ 2 ^ K := Nat.pow_le_pow_right (by decide) (by omega)
      have hpos : 0 < (m + 2 ^ 52) * 2 ^ (e - 1) := Nat.mul_pos (by omega) (Nat.two_pow_pos _)
      rw [habs] at hlt hpos
      have hp : 0 < 2 ^ K := Nat.two_pow_pos K
      have : n.natAbs ≠ 0 := by rintro h0; rw [h0, Nat.zero_mul] at hpos; exact absurd hpos (lt_irrefl _)
      have : 1 * 2 ^ K ≤ n.natAbs * 2 ^ K := Nat.mul_le_mul_right _ (by omega)
      rw [Nat.one_mul] at this
      exact absurd hlt (not_lt.2 this)
    · by_cases c2 : e < 1075
      · unfold splitCore
        simp only [c1, c2, if_true, if_false]
        rw [fract_zero_iff]
        have hd : 2 ^ (1075 - e) ∣ m + 2 ^ 52 := by
          refine ⟨n.natAbs, ?_⟩
          have e1 : 2 ^ K = 2 ^ (1075 - e) * 2 ^ (e - 1) := by rw [← pow_add]; congr 1; omega
          rw [e1, ← Nat.mul_assoc] at habs
          have := Nat.eq_of_mul_eq_mul_right (Nat.two_pow_pos _) habs
          rw [this, Nat.mul_comm]
        apply Nat.mod_eq_zero_of_dvd
        have e2 : 2 ^ 64 = 2 ^ (1075 - e) * 2 ^ (e - 1011) := by rw [← pow_add, show 1075 - e + (e - 1011) = 64 by omega]
        have hU : 2 ^ (1075 - e) ∣ (if s = true then 2 ^ 64 - (m + 2 ^ 52) else m + 2 ^ 52) := by
          split_ifs
          · exact Nat.dvd_sub (Nat.pow_dvd_pow 2 (by omega)) hd
          · exact hd
        exact Nat.dvd_trans (dvd_of_eq e2) (Nat.mul_dvd_mul_right hU _)
      · unfold splitCore
        simp only [c1, c2, if_false, show e < 1139 by omega, if_true]
        decide +kernel

/-- The sample is a whole number. -/
def Whole (x : F64) : Prop := ∃ n : ℤ, x.val = n

theorem whole_iff {x : F64} (h : InRange x) : (splitN x).2.feq FP.zero = true ↔ Whole x := by
  have hs := inRange_iff.1 h
  constructor
  · intro hf
    exact ⟨_, (val_eq_int (by decide)).2 (splitN_int hs hf)⟩
  · rintro ⟨n, hn⟩
    exact splitN_of_int hs ((val_eq_int (by decide)).1 hn)

/-- C90: the fractional flag says whether some sample is not a whole number. -/
theorem C90_fractional (data : List F64) (hne : data ≠ []) (hfin : AllFinite data) (hr : ∀ x ∈ data, InRange x) :
    ∃ st, DataStats.new data = .ok st ∧ (st.fractional = true ↔ ∃ x ∈ data, ¬ Whole x) := by
  obtain ⟨st, a, g1, hinv, -, -, -, -, e, -⟩ := stats_spec hne fun y hy => isFinite_not_nan (hfin y hy)
  refine ⟨st, g1, ?_⟩
  rw [e, hinv.frac, List.any_eq_true]
  constructor
  · rintro ⟨x, hx, hf⟩
    refine ⟨x, hx, fun hw => ?_⟩
    rw [(whole_iff (hr x hx)).2 hw] at hf
    cases hf
  · rintro ⟨x, hx, hf⟩
    refine ⟨x, hx, ?_⟩
    rw [Bool.not_eq_true', Bool.eq_false_iff]
    exact fun hc => hf ((whole_iff (hr x hx)).1 hc)

/-- Every sample is a whole number between `lo` and `hi`. -/
def WholeWithin (lo hi : ℤ) (data : List F64) : Prop := ∀ x ∈ data, ∃ n : ℤ, x.val = n ∧ lo ≤ n ∧ n ≤ hi

/-- C90: the recommended type is the narrowest that holds every sample: u8, i16, i32, else f64. -/
theorem C90_narrowest (data : List F64) (hne : data ≠ []) (hfin : AllFinite data) (hr : ∀ x ∈ data, InRange x) :
    ∃ st, DataStats.new data = .ok st ∧
      (st.bitdepth = .u8 ↔ WholeWithin 0 255 data) ∧
      (st.bitdepth = .i16 ↔ WholeWithin (-2 ^ 15) (2 ^ 15 - 1) data ∧ ¬ WholeWithin 0 255 data) ∧
      (st.bitdepth = .i32 ↔ WholeWithin (-2 ^ 31) (2 ^ 31 - 1) data ∧ ¬ WholeWithin (-2 ^ 15) (2 ^ 15 - 1) data) ∧
      (st.bitdepth = .f64 ↔ ¬ WholeWithin (-2 ^ 31) (2 ^ 31 - 1) data) := by
  obtain ⟨st, a, g1, hinv, -, -, -, -, e, hbd⟩ := stats_spec hne fun y hy => isFinite_not_nan (hfin y hy)
  refine ⟨st, g1, ?_⟩
  rw [hbd]
  cases hfr : a.fractional with
  | true =>
    rw [hinv.frac, List.any_eq_true] at hfr
    obtain ⟨x, hx, hf⟩ := hfr
    have hnw : ∀ lo hi, ¬ WholeWithin lo hi data := by
      intro lo hi hw
      obtain ⟨n, hn, _⟩ := hw x hx
      rw [(whole_iff (hr x hx)).2 ⟨n, hn⟩] at hf
      cases hf
    simp [hnw]
  | false =>
    have hall : ∀ x ∈ data, x.val = ((splitN x).1 : ℚ) := by
      intro x hx
      rw [hinv.frac, List.any_eq_false] at hfr
      have := hfr x hx
      exact (val_eq_int (by decide)).2 (splitN_int (inRange_iff.1 (hr x hx)) (by simpa using this))
    have hmaxm : a.max ∈ data := List.mem_of_getElem? hinv.max_at
    have hminm : a.min ∈ data := List.mem_of_getElem? hinv.min_at
    have key : ∀ lo hi : ℤ, WholeWithin lo hi data ↔ lo ≤ (splitN a.min).1 ∧ (splitN a.max).1 ≤ hi := by
      intro lo hi
      constructor
      · intro hw
        obtain ⟨n, n1, n2, _⟩ := hw _ hminm
        obtain ⟨k, k1, _, k3⟩ := hw _ hmaxm
        rw [hall _ hminm] at n1
        rw [hall _ hmaxm] at k1
        have n1 : (splitN a.min).1 = n := by exact_mod_cast n1
        have k1 : (splitN a.max).1 = k := by exact_mod_cast k1
        omega
      · rintro ⟨h1, h2⟩ x hx
        refine ⟨_, hall x hx, ?_, ?_⟩
        · have := (val_le_iff (mb := 52) (eb := 11) (by decide)).2 (hinv.min_le x hx)
          rw [hall _ hminm, hall x hx] at this
          have : (splitN a.min).1 ≤ (splitN x).1 := by exact_mod_cast this
          omega
        · have := (val_le_iff (mb := 52) (eb := 11) (by decide)).2 (hinv.max_le x hx)
          rw [hall _ hmaxm, hall x hx] at this
          have : (splitN x).1 ≤ (splitN a.max).1 := by exact_mod_cast this
          omega
    have hmm : (splitN a.min).1 ≤ (splitN a.max).1 := by
      have := (val_le_iff (mb := 52) (eb := 11) (by decide)).2 (hinv.max_le _ hminm)
      rw [hall _ hmaxm, hall _ hminm] at this
      exact_mod_cast this
    simp only [key, Bool.false_eq_true, if_false]
    generalize (splitN a.min).1 = lo at *
    generalize (splitN a.max).1 = hi at *
    unfold bitdepthOf
    refine ⟨?_, ?_, ?_, ?_⟩ <;> split_ifs <;> simp <;> omega

/-- The theorems apply to `demoData` = 1, 1, -300, 1: the mean is reported, the flag is off, the type is i16. -/
example : ∃ st, DataStats.new demoData = .ok st ∧ st.bitdepth = .i16 ∧ st.fractional = false := by
  obtain ⟨st, h1, -, h2, -, -⟩ := C90_narrowest demoData (by simp [demoData]) demoData_safe.1 demoData_safe.2
  exact ⟨st, h1, by rw [show DataStats.new demoData = _ from rfl] at h1; rw [← Except.ok.inj h1]; decide +kernel,
    by rw [show DataStats.new demoData = _ from rfl] at h1; rw [← Except.ok.inj h1]; decide +kernel⟩

example : Moderate demoData := by
  intro x hx
  refine ⟨demoData_safe.1 x hx, ?_⟩
  rcases demoData_safe.2 x hx with h | ⟨-, h⟩
  · rw [h, abs_zero]; exact (pow_pos (by norm_num) _).le
  · rw [show (63 : ℤ) = ((63 : Nat) : ℤ) from rfl, zpow_natCast] at h
    exact le_trans h.le (qpow_le (by norm_num))

end Atsc
