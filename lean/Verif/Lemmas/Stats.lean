import Verif.Lemmas.FloatVal
import Verif.Spec.Store
/- Invariant of the statistics loop. -/
namespace Atsc
open FP

/-- State of the statistics loop after the (non-empty) prefix `pre`. -/
structure StatsInv (pre : List F64) (a : StatsAcc) : Prop where
  hi : a.i = pre.length
  max_at : pre[a.maxLoc]? = some a.max
  max_le : ∀ x ∈ pre, x.scaled ≤ a.max.scaled
  max_first : ∀ j v, j < a.maxLoc → pre[j]? = some v → v.scaled < a.max.scaled
  min_at : pre[a.minLoc]? = some a.min
  min_le : ∀ x ∈ pre, a.min.scaled ≤ x.scaled
  min_first : ∀ j v, j < a.minLoc → pre[j]? = some v → a.min.scaled < v.scaled
  frac : a.fractional = pre.any fun v => !((splitN v).2.feq FP.zero)

def statsInit (d0 : F64) : StatsAcc :=
  { i := 0, min := d0, minLoc := 0, max := d0, maxLoc := 0, fractional := false, sum := FP.zero }

theorem statsInv_first (d0 : F64) : StatsInv [d0] ((statsInit d0).step d0) := by
  have hl : d0.lt d0 = false := by simp [lt]
  constructor <;> simp [StatsAcc.step, statsInit, hl]

theorem getElem?_append_single_lt {α : Type} {l : List α} {x v : α} {j : Nat} (h : l[j]? = some v) :
    (l ++ [x])[j]? = some v := by
  have hj : j < l.length := (List.getElem?_eq_some_iff.1 h).1
  rw [List.getElem?_append_left hj, h]

theorem getElem?_append_single_of_lt {α : Type} {l : List α} {x v : α} {j : Nat} (hj : j < l.length)
    (h : (l ++ [x])[j]? = some v) : l[j]? = some v := by
  rwa [List.getElem?_append_left hj] at h

theorem StatsInv.snoc {pre : List F64} {a : StatsAcc} (h : StatsInv pre a) (x : F64) (hx : x.isNaN = false)
    (hn : ∀ y ∈ pre, y.isNaN = false) : StatsInv (pre ++ [x]) (a.step x) := by
  have hmaxm : a.max ∈ pre := List.mem_of_getElem? h.max_at
  have hminm : a.min ∈ pre := List.mem_of_getElem? h.min_at
  have hmaxl : a.maxLoc < pre.length := (List.getElem?_eq_some_iff.1 h.max_at).1
  have hminl : a.minLoc < pre.length := (List.getElem?_eq_some_iff.1 h.min_at).1
  have hlt1 : a.max.lt x = decide (a.max.scaled < x.scaled) := by simp [lt, hx, hn _ hmaxm]
  have hlt2 : x.lt a.min = decide (x.scaled < a.min.scaled) := by simp [lt, hx, hn _ hminm]
  constructor
  · simp [StatsAcc.step, h.hi]
  · simp only [StatsAcc.step, hlt1]
    by_cases c : a.max.scaled < x.scaled
    · simp [c, h.hi]
    · simp only [c, decide_false, Bool.false_eq_true, if_false]; exact getElem?_append_single_lt h.max_at
  · simp only [StatsAcc.step, hlt1]
    intro y hy
    rw [List.mem_append, List.mem_singleton] at hy
    by_cases c : a.max.scaled < x.scaled
    · simp only [c, decide_true, if_true]
      rcases hy with hy | rfl
      · have := h.max_le y hy; omega
      · exact le_refl _
    · simp only [c, decide_false, Bool.false_eq_true, if_false]
      rcases hy with hy | rfl
      · exact h.max_le y hy
      · omega
  · simp only [StatsAcc.step, hlt1]
    intro j v hj hv
    by_cases c : a.max.scaled < x.scaled
    · simp only [c, decide_true, if_true] at hj ⊢
      have hv' := getElem?_append_single_of_lt (by rw [← h.hi]; exact hj) hv
      have := h.max_le v (List.mem_of_getElem? hv'); omega
    · simp only [c, decide_false, Bool.false_eq_true, if_false] at hj ⊢
      exact h.max_first j v hj (getElem?_append_single_of_lt (by omega) hv)
  · simp only [StatsAcc.step, hlt2]
    by_cases c : x.scaled < a.min.scaled
    · simp [c, h.hi]
    · simp only [c, decide_false, Bool.false_eq_true, if_false]; exact getElem?_append_single_lt h.min_at
  · simp only [StatsAcc.step, hlt2]
    intro y hy
    rw [List.mem_append, List.mem_singleton] at hy
    by_cases c : x.scaled < a.min.scaled
    · simp only [c, decide_true, if_true]
      rcases hy with hy | rfl
      · have := h.min_le y hy; omega
      · exact le_refl _
    · simp only [c, decide_false, Bool.false_eq_true, if_false]
      rcases hy with hy | rfl
      · exact h.min_le y hy
      · omega
  · simp only [StatsAcc.step, hlt2]
    intro j v hj hv
    by_cases c : x.scaled < a.min.scaled
    · simp only [c, decide_true, if_true] at hj ⊢
      have hv' := getElem?_append_single_of_lt (by rw [← h.hi]; exact hj) hv
      have := h.min_le v (List.mem_of_getElem? hv'); omega
    · simp only [c, decide_false, Bool.false_eq_true, if_false] at hj ⊢
      exact h.min_first j v hj (getElem?_append_single_of_lt (by omega) hv)
  · simp [StatsAcc.step, h.frac, List.any_append]

theorem StatsInv.foldl {pre rest : List F64} {a : StatsAcc} (h : StatsInv pre a)
    (hn : ∀ y ∈ pre ++ rest, y.isNaN = false) : StatsInv (pre ++ rest) (rest.foldl StatsAcc.step a) := by
  induction rest generalizing pre a with
  | nil => simpa using h
  | cons x rest ih =>
    have := ih (h.snoc x (hn x (by simp)) (fun y hy => hn y (by simp [hy])))
      (by simpa using hn)
    simpa using this

/-- `DataStats::new` on a non-empty chunk without NaN. -/
theorem stats_spec {data : List F64} (hne : data ≠ []) (hn : ∀ y ∈ data, y.isNaN = false) :
    ∃ st a, DataStats.new data = .ok st ∧ StatsInv data a ∧ st.max = a.max ∧ st.min = a.min ∧
      st.maxLoc = a.maxLoc ∧ st.minLoc = a.minLoc ∧ st.fractional = a.fractional ∧
      st.bitdepth = if a.fractional then .f64 else bitdepthOf (splitN a.max).1 (splitN a.min).1 := by
  cases data with
  | nil => exact absurd rfl hne
  | cons d0 rest =>
    have hinv := (statsInv_first d0).foldl (rest := rest) (by simpa using hn)
    simp only [List.singleton_append] at hinv
    exact ⟨_, _, rfl, hinv, rfl, rfl, rfl, rfl, rfl, rfl⟩

theorem bitdepthOf_u8 {a b : Int} (h : bitdepthOf a b = .u8) : a ≤ 255 ∧ 0 ≤ b := by
  unfold bitdepthOf at h
  simp only at h
  split_ifs at h <;> first | (exfalso; revert h; decide) | omega
theorem bitdepthOf_i16 {a b : Int} (h : bitdepthOf a b = .i16) : a ≤ 2 ^ 15 - 1 ∧ -2 ^ 15 ≤ b := by
  unfold bitdepthOf at h
  simp only at h
  split_ifs at h <;> first | (exfalso; revert h; decide) | omega
theorem bitdepthOf_i32 {a b : Int} (h : bitdepthOf a b = .i32) : a ≤ 2 ^ 31 - 1 ∧ -2 ^ 31 ≤ b := by
  unfold bitdepthOf at h
  simp only at h
  split_ifs at h <;> first | (exfalso; revert h; decide) | omega

theorem scaled_mul_le {a b : Int} (h : a * (2 ^ qexp 52 11 : Nat) ≤ b * (2 ^ qexp 52 11 : Nat)) : a ≤ b := by
  have hpos : (0 : Int) < (2 ^ qexp 52 11 : Nat) := by exact_mod_cast qpow_pos 52 11
  exact Int.le_of_mul_le_mul_right h hpos

/-- In the safe range the recommended depth holds every sample exactly. -/
theorem castBD_exact {data : List F64} (hfin : ∀ y ∈ data, y.isFinite = true) (hsafe : ∀ y ∈ data, SplitSafe y)
    {st : DataStats} (hst : DataStats.new data = .ok st) {x : F64} (hx : x ∈ data) :
    (castBD st.bitdepth x).scaled = x.scaled ∧ (castBD st.bitdepth x).mag = x.mag := by
  have hne : data ≠ [] := by rintro rfl; simp at hx
  have hn : ∀ y ∈ data, y.isNaN = false := fun y hy => isFinite_not_nan (hfin y hy)
  obtain ⟨st', a, h1, hinv, -, -, -, -, -, hbd⟩ := stats_spec hne hn
  rw [hst] at h1
  injection h1 with h1
  subst h1
  cases hfr : a.fractional with
  | true => rw [hfr] at hbd; simp at hbd; rw [hbd]; exact ⟨rfl, rfl⟩
  | false =>
    rw [hfr] at hbd; simp at hbd
    have hzero : ∀ y ∈ data, (splitN y).2.feq FP.zero = true := by
      intro y hy
      have := hinv.frac
      rw [hfr] at this
      have h2 := (List.any_eq_false.1 this.symm) y hy
      simpa using h2
    have hmaxm : a.max ∈ data := List.mem_of_getElem? hinv.max_at
    have hminm : a.min ∈ data := List.mem_of_getElem? hinv.min_at
    have hX : IsInt x (splitN x).1 := splitN_int (hsafe x hx) (hzero x hx)
    have hMax : IsInt a.max (splitN a.max).1 := splitN_int (hsafe _ hmaxm) (hzero _ hmaxm)
    have hMin : IsInt a.min (splitN a.min).1 := splitN_int (hsafe _ hminm) (hzero _ hminm)
    have hle : (splitN x).1 ≤ (splitN a.max).1 := by
      have := hinv.max_le x hx; rw [hX, hMax] at this; exact scaled_mul_le this
    have hge : (splitN a.min).1 ≤ (splitN x).1 := by
      have := hinv.min_le x hx; rw [hX, hMin] at this; exact scaled_mul_le this
    have hxn := hn x hx
    cases hb : st.bitdepth with
    | f64 => exact ⟨rfl, rfl⟩
    | u8 =>
      have := bitdepthOf_u8 (hbd ▸ hb)
      have ht : x.toU8 = (splitN x).1 := toInt_of_scaled hxn hX (by omega) (by omega)
      simp only [castBD, ht]
      exact ofInt_scaled (hfin x hx) hX
    | i16 =>
      have := bitdepthOf_i16 (hbd ▸ hb)
      have ht : x.toI16 = (splitN x).1 := toInt_of_scaled hxn hX (by omega) (by omega)
      simp only [castBD, ht]
      exact ofInt_scaled (hfin x hx) hX
    | i32 =>
      have := bitdepthOf_i32 (hbd ▸ hb)
      have ht : x.toI32 = (splitN x).1 := toInt_of_scaled hxn hX (by omega) (by omega)
      simp only [castBD, ht]
      exact ofInt_scaled (hfin x hx) hX

end Atsc
