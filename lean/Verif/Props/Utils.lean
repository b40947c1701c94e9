import Verif.Model.Utils
import Verif.Lemmas.Float
import Verif.Lemmas.FloatVal
import Verif.Spec.Float
import Mathlib.Data.Nat.Prime.Basic
import Mathlib.Order.Bounds.Basic
import Mathlib.Data.Nat.Bitwise
/- C29-C34: error metrics and arithmetic helpers. -/
namespace Atsc
open FP

/-! ### C33 -/

/-- Numbers of the form `2^a * 3^b`. -/
def ThreeSmooth (n : Nat) : Prop := ∃ a b, n = 2 ^ a * 3 ^ b

theorem stripFactor_spec {p : Nat} (hp : 2 ≤ p) : ∀ (fuel n : Nat), 1 ≤ n → n ≤ fuel →
    (∃ k, n = p ^ k * stripFactor p fuel n) ∧ ¬ p ∣ stripFactor p fuel n := by
  intro fuel
  induction fuel with
  | zero => intro n h1 h2; omega
  | succ f ih =>
    intro n h1 h2
    simp only [stripFactor]
    split_ifs with hc
    · have hd : p ∣ n := Nat.dvd_of_mod_eq_zero hc
      have hpos : 1 ≤ n / p := Nat.div_pos (Nat.le_of_dvd h1 hd) (by omega)
      have hlt : n / p < n := Nat.div_lt_self h1 hp
      obtain ⟨⟨k, hk⟩, h4⟩ := ih (n / p) hpos (by omega)
      refine ⟨⟨k + 1, ?_⟩, h4⟩
      rw [pow_succ, Nat.mul_comm (p ^ k) p, Nat.mul_assoc, ← hk, Nat.mul_div_cancel' hd]
    · exact ⟨⟨0, by simp⟩, fun h => hc (Nat.mod_eq_zero_of_dvd h)⟩

/-- C33: `is_decomposable` recognises exactly the numbers `2^a * 3^b` among the positive integers. -/
theorem C33_is_decomposable (n : Nat) (hn : 1 ≤ n) : isDecomposable n = true ↔ ThreeSmooth n := by
  obtain ⟨⟨a, ha⟩, hA⟩ := stripFactor_spec (p := 2) (by omega) n n hn (le_refl _)
  unfold isDecomposable
  simp only [decide_eq_true_eq]
  set A := stripFactor 2 n n with hAd
  have hA1 : 1 ≤ A := by
    rcases Nat.eq_zero_or_pos A with h | h
    · rw [h, Nat.mul_zero] at ha; omega
    · exact h
  obtain ⟨⟨b, hb⟩, hB⟩ := stripFactor_spec (p := 3) (by omega) A A hA1 (le_refl _)
  set B := stripFactor 3 A A with hBd
  constructor
  · intro h
    rw [h, Nat.mul_one] at hb
    exact ⟨a, b, by rw [← hb]; exact ha⟩
  · rintro ⟨a', b', h⟩
    have hBn : B ∣ 2 ^ a' * 3 ^ b' := by
      rw [← h, ha]; exact Dvd.dvd.mul_left (hb ▸ Dvd.intro_left _ rfl) _
    have h2 : ¬ 2 ∣ B := fun hd => hA (hb ▸ Dvd.dvd.mul_left hd _)
    have c2 : Nat.Coprime B (2 ^ a') := (Nat.Coprime.pow_right _ ((Nat.Prime.coprime_iff_not_dvd Nat.prime_two).2 h2).symm)
    have c3 : Nat.Coprime B (3 ^ b') := (Nat.Coprime.pow_right _ ((Nat.Prime.coprime_iff_not_dvd Nat.prime_three).2 hB).symm)
    exact Nat.Coprime.eq_one_of_dvd (Nat.Coprime.mul_right c2 c3) hBn

theorem nextSizeFrom_spec : ∀ (fuel s m : Nat), 1 ≤ s → s ≤ m → m < s + fuel → ThreeSmooth m →
    ThreeSmooth (nextSizeFrom fuel s) ∧ s ≤ nextSizeFrom fuel s ∧
      ∀ k, s ≤ k → ThreeSmooth k → nextSizeFrom fuel s ≤ k := by
  intro fuel
  induction fuel with
  | zero => intro s m _ h2 h3; omega
  | succ f ih =>
    intro s m h1 h2 h3 h4
    simp only [nextSizeFrom]
    split_ifs with hc
    · exact ⟨(C33_is_decomposable s h1).1 hc, le_refl _, fun k hk _ => hk⟩
    · have hns : ¬ ThreeSmooth s := fun h => hc ((C33_is_decomposable s h1).2 h)
      have hne : m ≠ s := fun h => hns (h ▸ h4)
      obtain ⟨i1, i2, i3⟩ := ih (s + 1) m (by omega) (by omega) (by omega) h4
      refine ⟨i1, by omega, fun k hk hs => i3 k ?_ hs⟩
      rcases Nat.eq_or_lt_of_le hk with rfl | h
      · exact absurd hs hns
      · omega

/-- C33: `next_size(n)` is the least number of the form `2^a * 3^b` greater than `n`. -/
theorem C33_next_size (n : Nat) : IsLeast {m | n < m ∧ ThreeSmooth m} (nextSize n) := by
  obtain ⟨m, h1, h2, h3⟩ : ∃ m, n + 1 ≤ m ∧ m < n + 1 + (n + 1) ∧ ThreeSmooth m := by
    rcases Nat.eq_zero_or_pos n with rfl | hn
    · exact ⟨1, by omega, by omega, 0, 0, rfl⟩
    · refine ⟨2 ^ (n.log2 + 1), Nat.lt_log2_self, ?_, n.log2 + 1, 0, by simp⟩
      have := Nat.log2_self_le (by omega : n ≠ 0)
      rw [pow_succ]; omega
  obtain ⟨i1, i2, i3⟩ := nextSizeFrom_spec (n + 1) (n + 1) m (by omega) h1 h2 h3
  exact ⟨⟨i2, i1⟩, fun k hk => i3 k hk.1 hk.2⟩

/-- C33: the padded size is at most twice the size. -/
theorem C33_next_size_le_double (n : Nat) (hn : 1 ≤ n) : nextSize n ≤ 2 * n := by
  have hm : 2 ^ (n.log2 + 1) ∈ {m | n < m ∧ ThreeSmooth m} := ⟨Nat.lt_log2_self, n.log2 + 1, 0, by simp⟩
  have h := (C33_next_size n).2 hm
  have := Nat.log2_self_le (by omega : n ≠ 0)
  rw [pow_succ] at h; omega

example : nextSize 128 = 144 ∧ nextSize 1024 = 1152 ∧ nextSize 131072 = 139968 := by decide +kernel

/-! ### C34 -/

/-- C34: for `n > 0`, `prev_power_of_two(n)` is the largest power of two not exceeding `n`. -/
theorem C34_prev_power_of_two (n : Nat) (hn : 0 < n) :
    IsGreatest {m | m ≤ n ∧ ∃ k, m = 2 ^ k} (prevPowerOfTwo n) := by
  have h1 := Nat.log2_self_le (by omega : n ≠ 0)
  have h2 := @Nat.lt_log2_self n
  have hlog : (n ||| 1).log2 = n.log2 := by
    have hle : n ≤ n ||| 1 := Nat.left_le_or
    have hlt : n ||| 1 < 2 ^ (n.log2 + 1) := Nat.or_lt_two_pow h2 (Nat.one_lt_two_pow (by omega))
    exact (Nat.log2_eq_iff (by omega)).2 ⟨by omega, hlt⟩
  have e : prevPowerOfTwo n = 2 ^ n.log2 := by
    unfold prevPowerOfTwo
    rw [hlog, Nat.one_shiftLeft, Nat.two_pow_and]
    have : n.testBit n.log2 = true := by
      rw [Nat.testBit_eq_decide_div_mod_eq, decide_eq_true_eq]
      have h3 : n / 2 ^ n.log2 = 1 := by
        apply Nat.div_eq_of_lt_le <;> simp
        · omega
        · rw [pow_succ] at h2; omega
      rw [h3]
    rw [this]; simp
  rw [e]
  refine ⟨⟨h1, _, rfl⟩, ?_⟩
  rintro m ⟨hm, k, rfl⟩
  have : k < n.log2 + 1 := (Nat.pow_lt_pow_iff_right (by omega : 1 < 2)).1 (lt_of_le_of_lt hm h2)
  exact Nat.pow_le_pow_right (by omega) (by omega)

/-- C34: the result is more than half of `n`. -/
theorem C34_more_than_half (n : Nat) (hn : 0 < n) : n < 2 * prevPowerOfTwo n := by
  obtain ⟨⟨h1, k, hk⟩, h2⟩ := C34_prev_power_of_two n hn
  by_contra hc
  have := h2 (a := 2 ^ (k + 1)) ⟨by rw [pow_succ]; omega, k + 1, rfl⟩
  rw [hk, pow_succ] at this
  have := Nat.two_pow_pos k
  omega

/-- C34: zero maps to zero. -/
theorem C34_zero : prevPowerOfTwo 0 = 0 := by decide

example : prevPowerOfTwo 1 = 1 ∧ prevPowerOfTwo 2049 = 2048 ∧ prevPowerOfTwo 1023 = 512 := by decide

/-! ### C29, C30, C31 -/

/-- C30: every error metric panics exactly when the two series have different lengths. -/
theorem C30_length_mismatch (m : ErrorMethod) (a b : List F64) :
    (∃ e, m.error a b = .error e) ↔ a.length ≠ b.length := by
  cases m <;> simp only [ErrorMethod.error, errorMse, errorNmse, errorMae, errorMape, errorSmape] <;>
    (split_ifs with h <;> simp [h])

/-- C30: so does the metric used by the compressors. -/
theorem C30_calculate_error (a b : List F64) : (∃ e, calculateError a b = .error e) ↔ a.length ≠ b.length :=
  C30_length_mismatch .mape a b

/-- Positive sign bit or NaN. -/
def PosOrNaN (x : F64) : Prop := x.isNaN = true ∨ x.sign = false

theorem nan_isNaN : (FP.nan : F64).isNaN = true := by decide +kernel

theorem pos_add {a b : F64} (ha : PosOrNaN a) (hb : PosOrNaN b) : PosOrNaN (a.add b) := by
  unfold FP.add
  split_ifs with h1 h2 h3 h4 h5
  · exact Or.inl nan_isNaN
  · exact Or.inl nan_isNaN
  · exact ha
  · exact hb
  · simp only [Bool.or_eq_true, not_or, Bool.not_eq_true] at h1
    right
    have e1 := ha.resolve_left (by simp [h1.1])
    simp [ofPat, e1]
  · simp only [Bool.or_eq_true, not_or, Bool.not_eq_true] at h1
    right
    have e1 := ha.resolve_left (by simp [h1.1])
    have e2 := hb.resolve_left (by simp [h1.2])
    have : ¬ a.scaled + b.scaled < 0 := by unfold FP.scaled; simp [e1, e2]; omega
    simp [ofRound, ofPat, this]

theorem pos_div {a b : F64} (ha : PosOrNaN a) (hb : PosOrNaN b) : PosOrNaN (a.div b) := by
  unfold FP.div
  split_ifs with h1 h2 h3 h4 h5 h6
  all_goals first
    | exact Or.inl nan_isNaN
    | (simp only [Bool.or_eq_true, not_or, Bool.not_eq_true] at h1
       have e1 := ha.resolve_left (by simp [h1.1])
       have e2 := hb.resolve_left (by simp [h1.2])
       right; simp only [FP.inf, ofRound_sign, ofPat_sign, e1, e2]; rfl)

theorem pos_sq (a : F64) : PosOrNaN (fsq a) := by
  unfold fsq FP.mul
  split_ifs
  · exact Or.inl nan_isNaN
  · exact Or.inl nan_isNaN
  · right; rw [FP.inf, ofPat_sign]; exact bne_self_eq_false _
  · right; rw [ofRound_sign]; exact bne_self_eq_false _

theorem pos_abs (a : F64) : PosOrNaN a.abs := Or.inr rfl
theorem pos_zero : PosOrNaN FP.zero := Or.inr rfl
theorem pos_lit (n : Nat) : PosOrNaN (F64.lit n) := by
  right; simp [F64.lit, FP.ofInt, ofRound, ofPat]

theorem pos_foldl : ∀ (xs : List F64) (s : F64), PosOrNaN s → (∀ x ∈ xs, PosOrNaN x) → PosOrNaN (xs.foldl FP.add s) := by
  intro xs
  induction xs with
  | nil => intro s hs _; exact hs
  | cons x xs ih => intro s hs h; exact ih _ (pos_add hs (h x (by simp))) fun y hy => h y (by simp [hy])

theorem pos_fsum (xs : List F64) (h : ∀ x ∈ xs, PosOrNaN x) : PosOrNaN (fsum xs) := pos_foldl xs _ pos_zero h

theorem mem_zipWith {α β γ : Type} {f : α → β → γ} {a : List α} {b : List β} {z : γ} (h : z ∈ List.zipWith f a b) :
    ∃ x y, z = f x y := by
  rw [List.zipWith_eq_zipWith_take_min, ← List.map_uncurry_zip_eq_zipWith] at h
  obtain ⟨p, _, rfl⟩ := List.mem_map.1 h
  exact ⟨p.1, p.2, rfl⟩

theorem pos_not_lt {x : F64} (h : PosOrNaN x) : x.lt FP.zero = false := by
  rw [Bool.eq_false_iff]
  intro hl
  rw [lt_iff, scaled_zero] at hl
  have hs := h.resolve_left (by simp [hl.1])
  unfold FP.scaled at hl
  simp [hs] at hl
  omega

theorem pos_smape (ps : List (F64 × F64)) : ∀ s : F64 × F64, PosOrNaN s.1 → PosOrNaN s.2 →
    PosOrNaN (ps.foldl smapeStep s).1 ∧ PosOrNaN (ps.foldl smapeStep s).2 := by
  induction ps with
  | nil => intro s h1 h2; exact ⟨h1, h2⟩
  | cons p ps ih =>
    intro s h1 h2
    rw [List.foldl_cons]
    apply ih
    · unfold smapeStep; split_ifs
      · exact h1
      · exact pos_add h1 (pos_abs _)
    · unfold smapeStep; split_ifs
      · exact h2
      · exact pos_add h2 (pos_add (pos_abs _) (pos_abs _))

/-- C29: no error metric ever returns a negative number (NaN is possible), for any two series at all. -/
theorem C29_never_negative (m : ErrorMethod) (a b : List F64) (r : F64) (h : m.error a b = .ok r) :
    r.isNaN = true ∨ (r.sign = false ∧ r.lt FP.zero = false) := by
  have key : PosOrNaN r := by
    cases m <;> simp only [ErrorMethod.error, errorMse, errorNmse, errorMae, errorMape, errorSmape] at h <;>
      (split_ifs at h; injection h with h; subst h)
    · refine pos_div (pos_fsum _ fun x hx => ?_) (pos_lit _)
      obtain ⟨_, _, rfl⟩ := mem_zipWith hx; exact pos_sq _
    · refine pos_div (pos_fsum _ fun x hx => ?_) (pos_fsum _ fun x hx => ?_)
      · obtain ⟨_, _, rfl⟩ := mem_zipWith hx; exact pos_sq _
      · obtain ⟨_, _, rfl⟩ := List.mem_map.1 hx; exact pos_sq _
    · refine pos_div (pos_fsum _ fun x hx => ?_) (pos_lit _)
      obtain ⟨_, _, rfl⟩ := mem_zipWith hx; exact pos_abs _
    · refine pos_div (pos_fsum _ fun x hx => ?_) (pos_lit _)
      obtain ⟨_, _, rfl⟩ := mem_zipWith hx; exact pos_abs _
    · have := pos_smape (a.zip b) (FP.zero, FP.zero) pos_zero pos_zero
      exact pos_div (pos_div this.1 this.2) (pos_lit _)
  rcases key with h1 | h1
  · exact Or.inl h1
  · exact Or.inr ⟨h1, pos_not_lt (Or.inr h1)⟩

theorem sub_self_zero {x : F64} (hx : x.isFinite = true) : x.sub x = FP.zero := by
  have hn := isFinite_not_nan hx
  have hi := isFinite_not_inf hx
  have hn' : x.neg.isNaN = false := hn
  have hi' : x.neg.isInf = false := hi
  unfold FP.sub FP.add
  have hs : x.scaled + x.neg.scaled = 0 := by
    unfold FP.scaled FP.neg FP.absVal; cases x.sign <;> simp
  have hg : (x.sign && x.neg.sign) = false := by unfold FP.neg; cases x.sign <;> rfl
  simp only [hn, hn', hi, hi', hs, hg, Bool.or_self, Bool.false_eq_true, if_false, if_true]
  rfl

theorem zero_add_zero : (FP.zero : F64).add FP.zero = FP.zero := by decide +kernel
theorem zero_sq : fsq (FP.zero : F64) = FP.zero := by decide +kernel

theorem fsum_zeros (xs : List F64) (h : ∀ x ∈ xs, x = FP.zero) : fsum xs = FP.zero := by
  unfold fsum
  induction xs with
  | nil => rfl
  | cons x xs ih =>
    rw [List.foldl_cons, h x (by simp), zero_add_zero]
    exact ih fun y hy => h y (by simp [hy])

theorem absVal_ne_zero_of_mag {x : F64} (h : x.mag.val ≠ 0) : x.absVal ≠ 0 := by
  unfold FP.absVal; rw [Ne, magVal_eq_zero]; exact h

theorem lit_pos_absVal {n : Nat} (hn : 0 < n) : (F64.lit n).absVal ≠ 0 := by
  apply absVal_ne_zero_of_mag
  have h1 : 1 ≤ roundPat 52 ((n : Int).natAbs * 2 ^ qexp 52 11) 1 := by
    apply le_roundPat_of_le (by omega)
    have : magVal 52 1 = 1 := by decide
    rw [this]
    have := qpow_pos 52 11
    have h2 : 1 ≤ (n : Int).natAbs := by omega
    exact Nat.mul_le_mul h2 this
  have h2 : (F64.lit n).mag.val = min (roundPat 52 ((n : Int).natAbs * 2 ^ qexp 52 11) 1) (infMag 52 11) := rfl
  have h3 : 1 ≤ infMag 52 11 := by decide
  rw [h2]; omega

theorem roundPat_zero {q : Nat} (hq : 0 < q) : roundPat 52 0 q = 0 := by
  have := roundPat_exact 52 0 hq
  simpa using this

/-- `±0 / y` is a zero for every `y` that is neither zero nor NaN. -/
theorem zero_div_abs {y : F64} (hn : y.isNaN = false) (h0 : y.absVal ≠ 0) :
    ((FP.zero : F64).div y).abs = FP.zero ∧ (y.sign = false → (FP.zero : F64).div y = FP.zero) := by
  unfold FP.div
  have h1 : (FP.zero : F64).isNaN = false := by decide
  have h2 : (FP.zero : F64).isInf = false := by decide
  have h3 : (FP.zero : F64).absVal = 0 := by decide
  simp only [hn, h0, h1, h2, h3, Bool.or_self, Bool.false_eq_true, if_false, Nat.zero_mul]
  split_ifs
  · refine ⟨?_, fun hs => ?_⟩
    · rfl
    · rw [hs]; rfl
  · unfold ofRound
    rw [roundPat_zero (by omega)]
    refine ⟨rfl, fun hs => ?_⟩
    rw [hs]; rfl

theorem lit_not_nan (n : Int) : (F64.lit n).isNaN = false := by unfold F64.lit FP.ofInt; exact ofRound_isNaN _ _ _

theorem zero_div_len {n : Nat} (hn : 0 < n) : (FP.zero : F64).div (F64.lit n) = FP.zero :=
  (zero_div_abs (lit_not_nan _) (lit_pos_absVal hn)).2 (by simp [F64.lit, FP.ofInt, ofRound, ofPat])

theorem zipWith_self {γ : Type} (f : F64 → F64 → γ) (a : List F64) : List.zipWith f a a = a.map fun x => f x x := by
  induction a with
  | nil => rfl
  | cons x a ih => simp

/-- C29: the mean squared error of a non-empty finite series with itself is 0. -/
theorem C29_mse_self (a : List F64) (hne : a ≠ []) (hf : AllFinite a) : errorMse a a = .ok FP.zero := by
  have hl : 0 < a.length := List.length_pos_iff.2 hne
  unfold errorMse
  rw [if_neg (by simp), zipWith_self, fsum_zeros, Nat.min_self, zero_div_len hl]
  intro x hx
  obtain ⟨y, hy, rfl⟩ := List.mem_map.1 hx
  rw [sub_self_zero (hf y hy), zero_sq]

/-- C29: the mean absolute error of a non-empty finite series with itself is 0. -/
theorem C29_mae_self (a : List F64) (hne : a ≠ []) (hf : AllFinite a) : errorMae a a = .ok FP.zero := by
  have hl : 0 < a.length := List.length_pos_iff.2 hne
  unfold errorMae
  rw [if_neg (by simp), zipWith_self, fsum_zeros, zero_div_len hl]
  intro x hx
  obtain ⟨y, hy, rfl⟩ := List.mem_map.1 hx
  rw [sub_self_zero (hf y hy)]; rfl

theorem absVal_ne_zero_of_val {x : F64} (h : x.val ≠ 0) : x.absVal ≠ 0 := by
  intro h0; apply h
  have := abs_val (by decide) x
  rw [h0] at this
  simpa using this

/-- C29: the MAPE of a non-empty finite series without zeros with itself is 0. -/
theorem C29_mape_self (a : List F64) (hne : a ≠ []) (hf : AllFinite a) (h0 : ∀ x ∈ a, x.val ≠ 0) :
    errorMape a a = .ok FP.zero := by
  have hl : 0 < a.length := List.length_pos_iff.2 hne
  unfold errorMape
  rw [if_neg (by simp), zipWith_self, fsum_zeros, zero_div_len hl]
  intro x hx
  obtain ⟨y, hy, rfl⟩ := List.mem_map.1 hx
  rw [sub_self_zero (hf y hy)]
  exact (zero_div_abs (isFinite_not_nan (hf y hy)) (absVal_ne_zero_of_val (h0 y hy))).1

theorem nan_add_left {a b : F64} (h : a.isNaN = true) : (a.add b).isNaN = true := by
  unfold FP.add; simp [h, nan_isNaN]
theorem nan_add_right {a b : F64} (h : b.isNaN = true) : (a.add b).isNaN = true := by
  unfold FP.add; simp [h, nan_isNaN]
theorem nan_div_left {a b : F64} (h : a.isNaN = true) : (a.div b).isNaN = true := by
  unfold FP.div; simp [h, nan_isNaN]

theorem nan_foldl_start (xs : List F64) : ∀ s : F64, s.isNaN = true → (xs.foldl FP.add s).isNaN = true := by
  induction xs with
  | nil => intro s h; exact h
  | cons x xs ih => intro s h; exact ih _ (nan_add_left h)

theorem nan_foldl (xs : List F64) : ∀ s : F64, (∃ x ∈ xs, x.isNaN = true) → (xs.foldl FP.add s).isNaN = true := by
  induction xs with
  | nil => rintro s ⟨x, hx, _⟩; simp at hx
  | cons x xs ih =>
    rintro s ⟨y, hy, hyn⟩
    rw [List.foldl_cons]
    rcases List.mem_cons.1 hy with rfl | hy
    · exact nan_foldl_start _ _ (nan_add_right hyn)
    · exact ih _ ⟨y, hy, hyn⟩

/-- A zero, of either sign. -/
theorem isZero_cases {x : F64} (h : x.val = 0) (hf : x.isFinite = true) : x = FP.zero ∨ x = FP.negZero := by
  have h1 : x.absVal = 0 := by
    by_contra hc
    have := abs_val (by decide) x
    rw [h, abs_zero, eq_comm, div_eq_zero_iff] at this
    rcases this with h2 | h2
    · exact hc (by exact_mod_cast h2)
    · exact absurd h2 (ne_of_gt (qpow_posQ 52 11))
  have h2 : x.mag.val = 0 := by unfold FP.absVal at h1; exact magVal_eq_zero.1 h1
  obtain ⟨s, m⟩ := x
  cases s
  · left; rw [ext_iff']; exact ⟨rfl, h2⟩
  · right; rw [ext_iff']; exact ⟨rfl, h2⟩

/-- C31: if a zero sample is reproduced exactly as a zero, MAPE is NaN. -/
theorem C31_mape_nan_on_zero (a b : List F64) (hl : a.length = b.length) (i : Nat) (ha : i < a.length) (hb : i < b.length)
    (za : (a[i]).val = 0) (zb : (b[i]).val = 0) (fa : (a[i]).isFinite = true) (fb : (b[i]).isFinite = true) :
    ∃ r, errorMape a b = .ok r ∧ r.isNaN = true := by
  unfold errorMape
  rw [if_neg (by simp [hl])]
  refine ⟨_, rfl, nan_div_left (nan_foldl _ _ ?_)⟩
  refine ⟨(((b[i]).sub a[i]).div a[i]).abs, ?_, ?_⟩
  · rw [List.mem_iff_getElem]
    exact ⟨i, by simp; omega, by simp⟩
  · rcases isZero_cases za fa with h1 | h1 <;> rcases isZero_cases zb fb with h2 | h2 <;> rw [h1, h2] <;> decide +kernel

theorem pos_add_not_nan {a b : F64} (ha : a.isNaN = false) (hb : b.isNaN = false) (sa : a.sign = false) (sb : b.sign = false) :
    (a.add b).isNaN = false := by
  unfold FP.add
  rw [ha, hb, sa, sb]
  simp only [Bool.or_self, Bool.false_eq_true, if_false, bne_self_eq_false, Bool.and_false]
  split_ifs
  · exact ha
  · exact hb
  · first
      | exact ofRound_isNaN _ _ _
      | exact ofPat_isNaN _ _
  · exact ofRound_isNaN _ _ _

theorem pos_foldl_not_nan : ∀ (xs : List F64) (s : F64), s.isNaN = false → s.sign = false →
    (∀ x ∈ xs, x.isNaN = false ∧ x.sign = false) → (xs.foldl FP.add s).isNaN = false := by
  intro xs
  induction xs with
  | nil => intro s h1 _ _; exact h1
  | cons x xs ih =>
    intro s h1 h2 h
    have hx := h x (by simp)
    have hn := pos_add_not_nan h1 hx.1 h2 hx.2
    refine ih _ hn ?_ fun y hy => h y (by simp [hy])
    exact (pos_add (Or.inr h2) (Or.inr hx.2)).resolve_left (by simp [hn])

theorem sub_not_nan {a b : F64} (ha : a.isFinite = true) (hb : b.isFinite = true) : (a.sub b).isNaN = false := by
  have hb' : b.neg.isFinite = true := hb
  unfold FP.sub FP.add
  rw [isFinite_not_nan ha, isFinite_not_inf ha, isFinite_not_nan hb', isFinite_not_inf hb']
  simp only [Bool.or_self, Bool.false_eq_true, if_false, Bool.and_false, Bool.false_and]
  split_ifs
  · exact ofPat_isNaN _ _
  · exact ofRound_isNaN _ _ _

theorem div_not_nan_of_pair {a b : F64} (ha : a.isNaN = false) (hb : b.isFinite = true) (h : ¬ (a.absVal = 0 ∧ b.absVal = 0)) :
    (a.div b).isNaN = false := by
  unfold FP.div
  rw [ha, isFinite_not_nan hb, isFinite_not_inf hb]
  simp only [Bool.or_self, Bool.false_eq_true, if_false, Bool.and_false]
  split_ifs with h1 h2 h3
  all_goals first
    | exact inf_isNaN _
    | exact ofPat_isNaN _ _
    | exact ofRound_isNaN _ _ _
    | exact absurd ⟨h3, h2⟩ h
    | exact absurd ⟨h2, h3⟩ h
    | exact absurd ⟨by assumption, by assumption⟩ h

theorem sub_zero_val {b a : F64} (hb : b.isFinite = true) (ha : a.isFinite = true) (hz : a.val = 0) (h : (b.sub a).absVal = 0) :
    b.val = 0 := by
  have ha' : a.neg.isFinite = true := ha
  have has : a.scaled = 0 := by
    have := (val_eq_int (by decide) (x := a) (n := 0)).1 (by rw [hz]; rfl)
    simpa using this
  have hns : a.neg.scaled = 0 := by
    rw [← Int.natAbs_eq_zero, scaled_natAbs] at has ⊢; exact has
  unfold FP.sub FP.add at h
  rw [isFinite_not_nan hb, isFinite_not_inf hb, isFinite_not_nan ha', isFinite_not_inf ha', hns] at h
  simp only [Bool.or_self, Bool.false_eq_true, if_false, add_zero] at h
  split_ifs at h with h0
  · rw [val_eq (by decide), h0]; simp
  · exfalso
    refine absVal_ne_zero_of_mag ?_ h
    have h1 : 1 ≤ roundPat 52 b.scaled.natAbs 1 := by
      apply le_roundPat_of_le (by omega)
      have : magVal 52 1 = 1 := by decide
      rw [this]; omega
    show min (roundPat 52 b.scaled.natAbs 1) (infMag 52 11) ≠ 0
    have : 1 ≤ infMag 52 11 := by decide
    omega

/-- C31, exactly: for finite series of equal length MAPE is NaN if and only if some zero sample is reproduced as a zero
(or the series are empty). -/
theorem C31_mape_nan_iff (a b : List F64) (hl : a.length = b.length) (hne : a ≠ []) (hlen : a.length ≤ 2 ^ 53)
    (fa : AllFinite a) (fb : AllFinite b) :
    ∃ r, errorMape a b = .ok r ∧
      (r.isNaN = true ↔ ∃ i, ∃ ha : i < a.length, ∃ hb : i < b.length, (a[i]).val = 0 ∧ (b[i]).val = 0) := by
  by_cases h : ∃ i, ∃ ha : i < a.length, ∃ hb : i < b.length, (a[i]).val = 0 ∧ (b[i]).val = 0
  · obtain ⟨i, ha, hb, h1, h2⟩ := h
    obtain ⟨r, h3, h4⟩ := C31_mape_nan_on_zero a b hl i ha hb h1 h2 (fa _ (List.getElem_mem _)) (fb _ (List.getElem_mem _))
    exact ⟨r, h3, fun _ => ⟨i, ha, hb, h1, h2⟩, fun _ => h4⟩
  · unfold errorMape
    rw [if_neg (by simp [hl])]
    refine ⟨_, rfl, fun hc => absurd hc ?_, fun hc => absurd hc h⟩
    rw [Bool.not_eq_true]
    have hpos : 0 < a.length := List.length_pos_of_ne_nil hne
    refine div_not_nan_of_pair ?_ (F64.lit_exact (by simpa using hlen)).2 (fun hc => lit_pos_absVal hpos hc.2)
    apply pos_foldl_not_nan _ _ (by decide) rfl
    intro x hx
    rw [List.mem_iff_getElem] at hx
    obtain ⟨i, hi, rfl⟩ := hx
    rw [List.getElem_zipWith]
    refine ⟨?_, rfl⟩
    rw [List.length_zipWith] at hi
    have hia : i < a.length := by omega
    have hib : i < b.length := by omega
    have fai := fa _ (List.getElem_mem hia)
    have fbi := fb _ (List.getElem_mem hib)
    show (((b[i]).sub a[i]).div a[i]).isNaN = false
    apply div_not_nan_of_pair (sub_not_nan fbi fai) fai
    rintro ⟨h1, h2⟩
    apply h
    have hz : (a[i]).val = 0 := by rw [val_eq (by decide), show (a[i]).scaled = 0 by rw [← Int.natAbs_eq_zero, scaled_natAbs]; exact h2]; simp
    exact ⟨i, hia, hib, hz, sub_zero_val fbi fai hz h1⟩

/-- C31: and a NaN error never passes the error filter of Auto (`result.error <= max_error`). -/
theorem C31_nan_fails_filter (r bound : F64) (h : r.isNaN = true) : r.le bound = false := by
  unfold FP.le; simp [h]

example : (errorMape [F64.lit 0, F64.lit 2] [F64.lit 0, F64.lit 2]).toOption.map (·.isNaN) = some true := by decide +kernel
example : errorMape [F64.lit 1, F64.lit 2] [F64.lit 1, F64.lit 1] = .ok ((F64.lit 1).div (F64.lit 4)) := by decide +kernel

end Atsc
