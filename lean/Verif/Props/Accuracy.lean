import Verif.Lemmas.MeanErr
import Verif.Spec.Metrics
/- C67: the error metrics compute their textbook formulas. -/
namespace Atsc
open FP

theorem zipWith_eq_map_zip {α β γ : Type} (f : α → β → γ) (a : List α) (b : List β) :
    List.zipWith f a b = (a.zip b).map fun p => f p.1 p.2 := by
  rw [List.zip_eq_zipWith, List.map_zipWith]

theorem zip_mem_left {α β : Type} {a : List α} {b : List β} {p : α × β} (h : p ∈ a.zip b) : p.1 ∈ a ∧ p.2 ∈ b := by
  obtain ⟨x, y⟩ := p
  exact List.of_mem_zip h

theorem sum_le_mul {α : Type} (l : List α) (t : α → ℚ) (M : ℚ) (h : ∀ x ∈ l, t x ≤ M) : (l.map t).sum ≤ l.length * M := by
  induction l with
  | nil => simp
  | cons x l ih =>
    have h1 := ih fun y hy => h y (by simp [hy])
    have h2 := h x (by simp)
    simp only [List.map_cons, List.sum_cons, List.length_cons]
    push_cast
    linarith

theorem sum_le_900 {α : Type} (l : List α) (t : α → ℚ) (hlen : l.length ≤ 2 ^ 50) (h : ∀ x ∈ l, t x ≤ 2 ^ 850) : (l.map t).sum ≤ 2 ^ 900 := by
  refine le_trans (sum_le_mul l t _ h) ?_
  have hk : (l.length : ℚ) ≤ 2 ^ 50 := by exact_mod_cast hlen
  have e : (2 : ℚ) ^ 900 = 2 ^ 50 * 2 ^ 850 := by rw [← pow_add]
  rw [e]
  exact mul_le_mul_of_nonneg_right hk (pow_pos (by norm_num) _).le

/-- Difference of two moderate floats. -/
theorem diff_err {x y : F64} (hx : x.isFinite = true ∧ |x.val| ≤ 2 ^ 400) (hy : y.isFinite = true ∧ |y.val| ≤ 2 ^ 400) :
    |y.val - x.val| ≤ 2 ^ 401 ∧ (y.sub x).isFinite = true ∧ |(y.sub x).val - (y.val - x.val)| ≤ u64 * |y.val - x.val| := by
  have h1 : |y.val - x.val| ≤ 2 ^ 401 := by
    refine le_trans (abs_sub _ _) ?_
    rw [pow_succ, mul_two]
    exact add_le_add hy.2 hx.2
  exact ⟨h1, sub_rel hy.1 hx.1 (le_trans h1 (qpow_le (by norm_num)))⟩

theorem abs_close {r v e : ℚ} (h : |r - v| ≤ e) : |(|r|) - (|v|)| ≤ e := le_trans (abs_abs_sub_abs_le_abs_sub _ _) h

theorem close_mono {c c' : ℚ} {r : F64} {v : ℚ} (hv : 0 ≤ v) (hc : c ≤ c') (h : Close c r v) : Close c' r v := by
  refine ⟨h.1, le_trans h.2 ?_⟩
  have : c / 2 ^ 53 * v ≤ c' / 2 ^ 53 * v := mul_le_mul_of_nonneg_right (div_le_div_of_nonneg_right hc (by positivity)) hv
  generalize (1 : ℚ) / 2 ^ 1070 = z
  linarith

theorem tiny_le {a b : Nat} (h : a ≤ b) : (1 : ℚ) / 2 ^ b ≤ 1 / 2 ^ a :=
  one_div_le_one_div_of_le (pow_pos (by norm_num) _) (qpow_le h)

/-- From the mean lemma to `Close`. -/
theorem close_of {r : F64} {v δ η : ℚ} {c : ℚ} {k : ℚ} (hv : 0 ≤ v) (hf : r.isFinite = true)
    (h : |r.val - v| ≤ (δ + k * u64) * v + 3 * η + 1 / 2 ^ 1075) (hδ : δ ≤ c * u64) (hη : η ≤ 1 / 2 ^ 1075) : Close (c + k) r v := by
  refine ⟨hf, le_trans h ?_⟩
  have e : (c + k) / 2 ^ 53 = c * u64 + k * u64 := by unfold u64; ring
  rw [e]
  have h1 : (δ + k * u64) * v ≤ (c * u64 + k * u64) * v := mul_le_mul_of_nonneg_right (by linarith) hv
  have h2 : (1 : ℚ) / 2 ^ 1070 = 32 * (1 / 2 ^ 1075) := by
    rw [show 1075 = 1070 + 5 from rfl, pow_add]
    have : (0 : ℚ) < 2 ^ 1070 := pow_pos (by norm_num) _
    generalize (2 : ℚ) ^ 1070 = A at *
    field_simp; norm_num
  rw [h2]
  have h3 := tiny_nonneg 1075
  generalize (1 : ℚ) / 2 ^ 1075 = z at *
  linarith

theorem zip_len {o g : List F64} (h : o.length = g.length) : (o.zip g).length = o.length := by rw [List.length_zip]; omega

/-- C67: the mean absolute error. -/
theorem C67_mae (o g : List F64) (hl : o.length = g.length) (h1 : 1 ≤ o.length) (h2 : o.length ≤ 2 ^ 50) (ho : Moderate o) (hg : Moderate g) :
    ∃ r, errorMae o g = .ok r ∧ Close (4 * o.length + 4) r (exactMae o g) := by
  have hz := zip_len hl
  refine ⟨_, by unfold errorMae; rw [if_neg (by omega)], ?_⟩
  unfold exactMae
  rw [zipWith_eq_map_zip, zipWith_eq_map_zip]
  have hT : TermErr (o.zip g) (fun p => (p.2.sub p.1).abs) (fun p => |p.2.val - p.1.val|) u64 0 := by
    have key : ∀ p ∈ o.zip g, _ := fun p hp => diff_err (ho _ (zip_mem_left hp).1) (hg _ (zip_mem_left hp).2)
    refine ⟨fun p hp => abs_finite (key p hp).2.1, fun p hp => ?_, fun p hp => abs_nonneg _, fun p hp => ?_⟩
    · rw [val_abs']; exact abs_nonneg _
    · rw [val_abs', add_zero]; exact abs_close (key p hp).2.2
  have hB := sum_le_900 (o.zip g) (fun p => |p.2.val - p.1.val|) (by omega)
    (fun p hp => le_trans (diff_err (ho _ (zip_mem_left hp).1) (hg _ (zip_mem_left hp).2)).1 (qpow_le (by norm_num)))
  have hu := u64_pos
  have hu1 : u64 ≤ 1 := by have := u64_small; nlinarith
  obtain ⟨hf, he⟩ := mean_approx hT (by omega) (by omega) hu.le hu1 le_rfl zero_le_one hB
  rw [hz] at hf he
  refine close_mono ?_ ?_ (close_of (c := 1) ?_ hf he (by linarith) (tiny_nonneg _))
  · exact div_nonneg hT.sum_nonneg (Nat.cast_nonneg _)
  · linarith
  · exact div_nonneg hT.sum_nonneg (Nat.cast_nonneg _)

/-- Square of a computed difference. -/
theorem sq_err {x y : F64} (hx : x.isFinite = true ∧ |x.val| ≤ 2 ^ 400) (hy : y.isFinite = true ∧ |y.val| ≤ 2 ^ 400) :
    (fsq (y.sub x)).isFinite = true ∧ 0 ≤ (fsq (y.sub x)).val ∧ |(fsq (y.sub x)).val - (y.val - x.val) ^ 2| ≤ 4 * u64 * (y.val - x.val) ^ 2 + 1 / 2 ^ 1075 ∧
      (y.val - x.val) ^ 2 ≤ 2 ^ 850 := by
  obtain ⟨hd, hf, he⟩ := diff_err hx hy
  have hu := u64_pos
  have hu8 : u64 ≤ 1 / 8 := by have := u64_small; nlinarith
  have hsq : (y.val - x.val) ^ 2 ≤ 2 ^ 850 := by
    rw [← sq_abs]
    refine le_trans (pow_le_pow_left₀ (abs_nonneg _) hd 2) ?_
    rw [← pow_mul]; exact qpow_le (by norm_num)
  have hdm : |(y.sub x).val| ≤ 2 ^ 402 := by
    have h1 := abs_sub_abs_le_abs_sub (y.sub x).val (y.val - x.val)
    have h2 : u64 * |y.val - x.val| ≤ 1 * |y.val - x.val| := mul_le_mul_of_nonneg_right (by linarith) (abs_nonneg _)
    have h3 : |(y.sub x).val| ≤ |y.val - x.val| + |y.val - x.val| := by clear hd hsq hx hy; linarith
    refine le_trans h3 ?_
    rw [pow_succ, mul_two]
    exact add_le_add hd hd
  have hprod : |(y.sub x).val * (y.sub x).val| ≤ 2 ^ 804 := by
    rw [abs_mul]
    refine le_trans (mul_le_mul hdm hdm (abs_nonneg _) (pow_pos (by norm_num) _).le) ?_
    rw [← pow_add]
  obtain ⟨mf, me⟩ := mul_err hf hf (le_trans hprod (qpow_le (by norm_num)))
  refine ⟨mf, ?_, ?_, hsq⟩
  · -- the sign of a square
    rw [val_sgn (by decide)]
    have hs : (fsq (y.sub x)).sign = false := by
      unfold fsq FP.mul
      rw [isFinite_not_nan hf, isFinite_not_inf hf]
      simp only [Bool.or_self, Bool.false_eq_true, if_false, ofRound_sign, bne_self_eq_false]
    rw [hs]
    have : sgn false = 1 := rfl
    rw [this, one_mul]
    exact div_nonneg (Nat.cast_nonneg _) (qpow_posQ 52 11).le
  · have h1 : |(fsq (y.sub x)).val - (y.sub x).val * (y.sub x).val| ≤ u64 * ((y.sub x).val * (y.sub x).val) + 1 / 2 ^ 1075 := by
      refine le_trans me (le_trans (ulpErr_le _) (le_of_eq ?_))
      rw [abs_of_nonneg (mul_self_nonneg _), add_comm]
      unfold u64; ring
    clear hprod hdm hsq hd me mf hx hy
    generalize (fsq (y.sub x)).val = r at *
    generalize (y.sub x).val = d at *
    generalize y.val - x.val = e at *
    generalize (1 : ℚ) / 2 ^ 1075 = z at *
    have h2 : |d * d - e ^ 2| ≤ (2 * u64 + u64 ^ 2) * e ^ 2 := by
      have : d * d - e ^ 2 = (d - e) * (d - e) + 2 * e * (d - e) := by ring
      rw [this]
      refine le_trans (abs_add_le _ _) ?_
      rw [abs_mul, abs_mul, abs_mul, abs_two]
      have h3 : |d - e| * |d - e| ≤ (u64 * |e|) * (u64 * |e|) := mul_le_mul he he (abs_nonneg _) (by positivity)
      have h4 : 2 * |e| * |d - e| ≤ 2 * |e| * (u64 * |e|) := mul_le_mul_of_nonneg_left he (by positivity)
      have h5 : |e| * |e| = e ^ 2 := by rw [← pow_two, sq_abs]
      calc |d - e| * |d - e| + 2 * |e| * |d - e| ≤ (u64 * |e|) * (u64 * |e|) + 2 * |e| * (u64 * |e|) := add_le_add h3 h4
        _ = (2 * u64 + u64 ^ 2) * (|e| * |e|) := by ring
        _ = _ := by rw [h5]
    have ⟨b1, b2⟩ := abs_le.1 h2
    have he2 : 0 ≤ e ^ 2 := sq_nonneg _
    have hu2 : u64 ^ 2 ≤ u64 / 8 := by nlinarith
    have h6 : (2 * u64 + u64 ^ 2) * e ^ 2 ≤ (2 * u64 + u64 / 8) * e ^ 2 := mul_le_mul_of_nonneg_right (by linarith) he2
    have h7 : u64 * (d * d) ≤ u64 * ((1 + 2 * u64 + u64 / 8) * e ^ 2) := mul_le_mul_of_nonneg_left (by linarith) hu.le
    have h8 : u64 * ((1 + 2 * u64 + u64 / 8) * e ^ 2) ≤ u64 * (3 / 2 * e ^ 2) := by
      apply mul_le_mul_of_nonneg_left _ hu.le
      apply mul_le_mul_of_nonneg_right _ he2
      linarith
    have hue : 0 ≤ u64 * e ^ 2 := mul_nonneg hu.le he2
    have := abs_sub_le r (d * d) (e ^ 2)
    linarith

theorem val_sub_comm_sq {x y : F64} (hx : x.isFinite = true ∧ |x.val| ≤ 2 ^ 400) (hy : y.isFinite = true ∧ |y.val| ≤ 2 ^ 400) :
    (fsq (x.sub y)).isFinite = true ∧ 0 ≤ (fsq (x.sub y)).val ∧ |(fsq (x.sub y)).val - (y.val - x.val) ^ 2| ≤ 4 * u64 * (y.val - x.val) ^ 2 + 1 / 2 ^ 1075 ∧
      (y.val - x.val) ^ 2 ≤ 2 ^ 850 := by
  have h := sq_err hy hx
  have e : (x.val - y.val) ^ 2 = (y.val - x.val) ^ 2 := by ring
  rw [e] at h
  exact h

/-- C67: the mean squared error. -/
theorem C67_mse (o g : List F64) (hl : o.length = g.length) (h1 : 1 ≤ o.length) (h2 : o.length ≤ 2 ^ 50) (ho : Moderate o) (hg : Moderate g) :
    ∃ r, errorMse o g = .ok r ∧ Close (4 * o.length + 7) r (exactMse o g) := by
  have hz := zip_len hl
  refine ⟨_, by unfold errorMse; rw [if_neg (by omega)], ?_⟩
  have hm : min o.length g.length = o.length := by omega
  rw [hm]
  unfold exactMse
  rw [zipWith_eq_map_zip, zipWith_eq_map_zip]
  have key : ∀ p ∈ o.zip g, _ := fun p hp => val_sub_comm_sq (ho _ (zip_mem_left hp).1) (hg _ (zip_mem_left hp).2)
  have hT : TermErr (o.zip g) (fun p => fsq (p.1.sub p.2)) (fun p => (p.2.val - p.1.val) ^ 2) (4 * u64) (1 / 2 ^ 1075) :=
    ⟨fun p hp => (key p hp).1, fun p hp => (key p hp).2.1, fun p hp => sq_nonneg _, fun p hp => (key p hp).2.2.1⟩
  have hB := sum_le_900 (o.zip g) (fun p => (p.2.val - p.1.val) ^ 2) (by omega) (fun p hp => (key p hp).2.2.2)
  have hu := u64_pos
  have hu1 : 4 * u64 ≤ 1 := by have := u64_small; nlinarith
  obtain ⟨hf, he⟩ := mean_approx hT (by omega) (by omega) (by linarith) hu1 (tiny_nonneg _) (le_trans (tiny_le (Nat.zero_le _)) (by norm_num)) hB
  rw [hz] at hf he
  refine close_mono ?_ ?_ (close_of (c := 4) ?_ hf he le_rfl le_rfl)
  · exact div_nonneg hT.sum_nonneg (Nat.cast_nonneg _)
  · linarith
  · exact div_nonneg hT.sum_nonneg (Nat.cast_nonneg _)

/-- Relative error of one sample. -/
theorem pct_err {x y : F64} (hx : x.isFinite = true ∧ |x.val| ≤ 2 ^ 400) (hx0 : 1 / 2 ^ 400 ≤ |x.val|) (hy : y.isFinite = true ∧ |y.val| ≤ 2 ^ 400) :
    ((y.sub x).div x).abs.isFinite = true ∧ |((y.sub x).div x).abs.val - (|(y.val - x.val) / x.val|)| ≤ 3 * u64 * |(y.val - x.val) / x.val| + 1 / 2 ^ 1075 ∧
      |(y.val - x.val) / x.val| ≤ 2 ^ 850 := by
  obtain ⟨hd, hf, he⟩ := diff_err hx hy
  have hu := u64_pos
  have hu8 : u64 ≤ 1 / 8 := by have := u64_small; nlinarith
  have hxp : 0 < |x.val| := lt_of_lt_of_le (by positivity) hx0
  have hne : x.val ≠ 0 := abs_pos.1 hxp
  have hq : |(y.val - x.val) / x.val| ≤ 2 ^ 801 := by
    rw [abs_div, div_le_iff₀ hxp]
    refine le_trans hd ?_
    have e : (2 : ℚ) ^ 401 = 2 ^ 801 * (1 / 2 ^ 400) := by
      rw [show 801 = 401 + 400 from rfl, pow_add, mul_one_div, mul_div_assoc, div_self (by positivity), mul_one]
    rw [e]
    exact mul_le_mul_of_nonneg_left hx0 (pow_pos (by norm_num) _).le
  have hrel : |(y.sub x).val / x.val - (y.val - x.val) / x.val| ≤ u64 * |(y.val - x.val) / x.val| := by
    rw [← sub_div, abs_div, abs_div, ← mul_div_assoc]
    exact div_le_div_of_nonneg_right he hxp.le
  have hq2 : |(y.sub x).val / x.val| ≤ 2 * |(y.val - x.val) / x.val| := by
    have := abs_sub_abs_le_abs_sub ((y.sub x).val / x.val) ((y.val - x.val) / x.val)
    have h2 : u64 * |(y.val - x.val) / x.val| ≤ 1 * |(y.val - x.val) / x.val| := mul_le_mul_of_nonneg_right (by linarith) (abs_nonneg _)
    clear hd hx hy hx0 hq
    linarith
  have hb : |(y.sub x).val / x.val| ≤ 2 ^ 1023 := by
    refine le_trans hq2 (le_trans (mul_le_mul_of_nonneg_left hq (by norm_num)) ?_)
    rw [← pow_succ']
    exact qpow_le (by norm_num)
  obtain ⟨df, de⟩ := div_err hf hx.1 hne hb
  refine ⟨abs_finite df, ?_, le_trans hq (qpow_le (by norm_num))⟩
  rw [val_abs']
  apply abs_close
  have de' := le_trans de (ulpErr_le _)
  clear hd hx hy hx0 hq hb de he hf df hxp
  have e53 : |(y.sub x).val / x.val| / 2 ^ 53 = u64 * |(y.sub x).val / x.val| := by unfold u64; ring
  rw [e53] at de'
  have h3 : u64 * |(y.sub x).val / x.val| ≤ u64 * (2 * |(y.val - x.val) / x.val|) := mul_le_mul_of_nonneg_left hq2 hu.le
  have := abs_sub_le ((y.sub x).div x).val ((y.sub x).val / x.val) ((y.val - x.val) / x.val)
  generalize (1 : ℚ) / 2 ^ 1075 = z at *
  linarith

/-- C67: the mean absolute percentage error, the default metric, when no original sample is (nearly) zero. -/
theorem C67_mape (o g : List F64) (hl : o.length = g.length) (h1 : 1 ≤ o.length) (h2 : o.length ≤ 2 ^ 50) (ho : Moderate o)
    (ho0 : ∀ x ∈ o, 1 / 2 ^ 400 ≤ |x.val|) (hg : Moderate g) :
    ∃ r, errorMape o g = .ok r ∧ Close (4 * o.length + 6) r (exactMape o g) := by
  have hz := zip_len hl
  refine ⟨_, by unfold errorMape; rw [if_neg (by omega)], ?_⟩
  unfold exactMape
  rw [zipWith_eq_map_zip, zipWith_eq_map_zip]
  have key : ∀ p ∈ o.zip g, _ := fun p hp => pct_err (ho _ (zip_mem_left hp).1) (ho0 _ (zip_mem_left hp).1) (hg _ (zip_mem_left hp).2)
  have hT : TermErr (o.zip g) (fun p => ((p.2.sub p.1).div p.1).abs) (fun p => |(p.2.val - p.1.val) / p.1.val|) (3 * u64) (1 / 2 ^ 1075) :=
    ⟨fun p hp => (key p hp).1, fun p hp => by rw [val_abs']; exact abs_nonneg _, fun p hp => abs_nonneg _, fun p hp => (key p hp).2.1⟩
  have hB := sum_le_900 (o.zip g) (fun p => |(p.2.val - p.1.val) / p.1.val|) (by omega) (fun p hp => (key p hp).2.2)
  have hu := u64_pos
  have hu1 : 3 * u64 ≤ 1 := by have := u64_small; nlinarith
  obtain ⟨hf, he⟩ := mean_approx hT (by omega) (by omega) (by linarith) hu1 (tiny_nonneg _) (le_trans (tiny_le (Nat.zero_le _)) (by norm_num)) hB
  rw [hz] at hf he
  refine close_mono ?_ ?_ (close_of (c := 3) ?_ hf he le_rfl le_rfl)
  · exact div_nonneg hT.sum_nonneg (Nat.cast_nonneg _)
  · linarith
  · exact div_nonneg hT.sum_nonneg (Nat.cast_nonneg _)

/-- Square of a moderate float. -/
theorem sq_self_err {x : F64} (hx : x.isFinite = true ∧ |x.val| ≤ 2 ^ 400) :
    (fsq x).isFinite = true ∧ 0 ≤ (fsq x).val ∧ |(fsq x).val - x.val ^ 2| ≤ u64 * x.val ^ 2 + 1 / 2 ^ 1075 ∧ x.val ^ 2 ≤ 2 ^ 850 := by
  have hprod : |x.val * x.val| ≤ 2 ^ 800 := by
    rw [abs_mul]
    refine le_trans (mul_le_mul hx.2 hx.2 (abs_nonneg _) (pow_pos (by norm_num) _).le) ?_
    rw [← pow_add]
  obtain ⟨mf, me⟩ := mul_err hx.1 hx.1 (le_trans hprod (qpow_le (by norm_num)))
  refine ⟨mf, ?_, ?_, ?_⟩
  · rw [val_sgn (by decide)]
    have hs : (fsq x).sign = false := by
      unfold fsq FP.mul
      rw [isFinite_not_nan hx.1, isFinite_not_inf hx.1]
      simp only [Bool.or_self, Bool.false_eq_true, if_false, ofRound_sign, bne_self_eq_false]
    rw [hs]
    have : sgn false = 1 := rfl
    rw [this, one_mul]
    exact div_nonneg (Nat.cast_nonneg _) (qpow_posQ 52 11).le
  · have e : x.val ^ 2 = x.val * x.val := pow_two _
    rw [e]
    refine le_trans me (le_trans (ulpErr_le _) (le_of_eq ?_))
    rw [abs_of_nonneg (mul_self_nonneg _), add_comm]
    unfold u64; ring
  · rw [pow_two, ← abs_of_nonneg (mul_self_nonneg x.val)]
    exact le_trans hprod (qpow_le (by norm_num))

theorem count_small {k : Nat} (h : k ≤ 2 ^ 48) : (k : ℚ) * u64 ≤ 1 / 32 := by
  have hk : (k : ℚ) ≤ 2 ^ 48 := by exact_mod_cast h
  have hu := u64_pos
  have hus := u64_small
  nlinarith

/-- C67: the normalised mean squared error, when the original has some energy and the ratio is representable. -/
theorem C67_nmse (o g : List F64) (hl : o.length = g.length) (h1 : 1 ≤ o.length) (h2 : o.length ≤ 2 ^ 48) (ho : Moderate o) (hg : Moderate g)
    (he : 1 / 2 ^ 500 ≤ (o.map fun x => x.val ^ 2).sum) (hq : exactNmse o g ≤ 2 ^ 1000) :
    ∃ r, errorNmse o g = .ok r ∧ r.isFinite = true ∧ |r.val - exactNmse o g| ≤ (16 * o.length + 22) / 2 ^ 53 * exactNmse o g + 1 / 2 ^ 500 := by
  have hz := zip_len hl
  have h250 : o.length ≤ 2 ^ 50 := by omega
  refine ⟨_, by unfold errorNmse; rw [if_neg (by omega)], ?_⟩
  unfold exactNmse at hq ⊢
  rw [zipWith_eq_map_zip] at hq
  rw [zipWith_eq_map_zip, zipWith_eq_map_zip]
  have key : ∀ p ∈ o.zip g, _ := fun p hp => sq_err (ho _ (zip_mem_left hp).1) (hg _ (zip_mem_left hp).2)
  have hT : TermErr (o.zip g) (fun p => fsq (p.2.sub p.1)) (fun p => (p.2.val - p.1.val) ^ 2) (4 * u64) (1 / 2 ^ 1075) :=
    ⟨fun p hp => (key p hp).1, fun p hp => (key p hp).2.1, fun p hp => sq_nonneg _, fun p hp => (key p hp).2.2.1⟩
  have hB := sum_le_900 (o.zip g) (fun p => (p.2.val - p.1.val) ^ 2) (by omega) (fun p hp => (key p hp).2.2.2)
  have hT2 : TermErr o fsq (fun x => x.val ^ 2) u64 (1 / 2 ^ 1075) :=
    ⟨fun p hp => (sq_self_err (ho p hp)).1, fun p hp => (sq_self_err (ho p hp)).2.1, fun p hp => sq_nonneg _, fun p hp => (sq_self_err (ho p hp)).2.2.1⟩
  have hB2 := sum_le_900 o (fun x => x.val ^ 2) h250 (fun p hp => (sq_self_err (ho p hp)).2.2.2)
  have hu := u64_pos
  have hus : u64 ≤ 1 / 1000 := by have := u64_small; nlinarith
  have ht1 : (1 : ℚ) / 2 ^ 1075 ≤ 1 := le_trans (tiny_le (Nat.zero_le _)) (by norm_num)
  obtain ⟨uf, u0, ue⟩ := fsum_approx hT (by omega) (by linarith) (by linarith) (tiny_nonneg _) ht1 hB
  obtain ⟨df, d0, de⟩ := fsum_approx hT2 (by omega) hu.le (by linarith) (tiny_nonneg _) ht1 hB2
  rw [hz] at ue
  have hT10 := hT.sum_nonneg
  have hTp : 0 < (o.map fun x => x.val ^ 2).sum := lt_of_lt_of_le (by positivity) he
  have hk : (o.length : ℚ) ≤ 2 ^ 50 := by exact_mod_cast h250
  have hk0 : (0 : ℚ) ≤ o.length := Nat.cast_nonneg _
  have hku := count_small h2
  have hku0 : 0 ≤ (o.length : ℚ) * u64 := mul_nonneg hk0 hu.le
  -- the absolute errors are negligible
  have hα0 : 0 ≤ 2 * (o.length : ℚ) * (1 / 2 ^ 1075) := mul_nonneg (by linarith) (tiny_nonneg _)
  have hα : 2 * (o.length : ℚ) * (1 / 2 ^ 1075) ≤ 1 / 2 ^ 1024 := by
    have : (1 : ℚ) / 2 ^ 1024 = 2 * 2 ^ 50 * (1 / 2 ^ 1075) := by
      rw [show 1075 = 1024 + 51 from rfl, pow_add]
      have : (0 : ℚ) < 2 ^ 1024 := pow_pos (by norm_num) _
      generalize (2 : ℚ) ^ 1024 = A at *
      field_simp
    rw [this]
    exact mul_le_mul_of_nonneg_right (by linarith) (tiny_nonneg _)
  have h524 : (1 : ℚ) / 2 ^ 1024 = 1 / 2 ^ 524 * (1 / 2 ^ 500) := by rw [one_div_mul_one_div, ← pow_add]
  have hα2 : 2 * (o.length : ℚ) * (1 / 2 ^ 1075) ≤ 1 / 2 ^ 524 * (o.map fun x => x.val ^ 2).sum := by
    refine le_trans hα ?_
    rw [h524]; exact mul_le_mul_of_nonneg_left he (tiny_nonneg _)
  have h53 : (1 : ℚ) / 2 ^ 524 ≤ u64 := by unfold u64; exact tiny_le (by norm_num)
  have hα3 : (1 : ℚ) / 2 ^ 524 * (o.map fun x => x.val ^ 2).sum ≤ u64 * (o.map fun x => x.val ^ 2).sum := mul_le_mul_of_nonneg_right h53 hTp.le
  have hbig : 2 * (((o.zip g).map fun p => (p.2.val - p.1.val) ^ 2).sum / (o.map fun x => x.val ^ 2).sum) + 2 * (1 / 2 ^ 524) ≤ 2 ^ 1023 := by
    have hw1 : (1 : ℚ) / 2 ^ 524 ≤ 2 ^ 1000 :=
      le_trans (tiny_le (Nat.zero_le _)) (le_trans (by norm_num : (1 : ℚ) / 2 ^ 0 ≤ 1) (one_le_pow₀ (by norm_num)))
    have e4 : (2 : ℚ) ^ 1002 = 2 * 2 ^ 1000 + 2 * 2 ^ 1000 := by rw [show 1002 = 1000 + 2 from rfl, pow_add]; ring
    refine le_trans ?_ (qpow_le (show 1002 ≤ 1023 by norm_num))
    rw [e4]
    exact add_le_add (mul_le_mul_of_nonneg_left hq (by norm_num)) (mul_le_mul_of_nonneg_left hw1 (by norm_num))
  clear hq
  have hrr := ratio_round (ρ := (4 * o.length + 5) * u64) (w := 1 / 2 ^ 524) uf df u0 hT10 hTp (by positivity) (by linarith) hα0 (by
      refine le_trans ue (add_le_add ?_ le_rfl)
      exact mul_le_mul_of_nonneg_right (by linarith) hT10) (by
      refine le_trans de (le_trans (add_le_add le_rfl (le_trans hα2 hα3)) ?_)
      rw [← add_mul]
      exact mul_le_mul_of_nonneg_right (by linarith) hTp.le) hα2 hbig
  refine ⟨hrr.2.1, le_trans hrr.2.2 ?_⟩
  have e3 : (16 * (o.length : ℚ) + 22) / 2 ^ 53 = 4 * ((4 * o.length + 5) * u64) + 2 * u64 := by unfold u64; ring
  have h20 : (1 : ℚ) / 2 ^ 500 = 2 ^ 24 * (1 / 2 ^ 524) := by
    rw [show 524 = 500 + 24 from rfl, pow_add]
    have : (0 : ℚ) < 2 ^ 500 := pow_pos (by norm_num) _
    generalize (2 : ℚ) ^ 500 = A at *
    field_simp
  rw [e3, h20, add_assoc]
  apply add_le_add le_rfl
  have h1075 : (1 : ℚ) / 2 ^ 1075 ≤ 1 / 2 ^ 524 := tiny_le (by norm_num)
  have h524n := tiny_nonneg 524
  clear hbig hrr hα3 h53 hα2 h524 hα hα0 he ue de h20 hB hB2 ht1 hT hT2 key
  generalize (1 : ℚ) / 2 ^ 1075 = z at *
  generalize (1 : ℚ) / 2 ^ 524 = w at *
  linarith

/-- Sum of the magnitudes of two moderate floats. -/
theorem magsum_err {x y : F64} (hx : x.isFinite = true ∧ |x.val| ≤ 2 ^ 400) (hy : y.isFinite = true ∧ |y.val| ≤ 2 ^ 400) :
    |x.val| + |y.val| ≤ 2 ^ 401 ∧ (x.abs.add y.abs).isFinite = true ∧ 0 ≤ (x.abs.add y.abs).val ∧
      |(x.abs.add y.abs).val - (|x.val| + |y.val|)| ≤ u64 * (|x.val| + |y.val|) := by
  have h1 : |x.val| + |y.val| ≤ 2 ^ 401 := by
    rw [pow_succ, mul_two]
    exact add_le_add hx.2 hy.2
  have h0 : 0 ≤ |x.val| + |y.val| := add_nonneg (abs_nonneg _) (abs_nonneg _)
  obtain ⟨hf, he⟩ := add_rel (abs_finite hx.1) (abs_finite hy.1) (by
    rw [val_abs', val_abs', abs_of_nonneg h0]; exact le_trans h1 (qpow_le (by norm_num)))
  rw [val_abs', val_abs', abs_of_nonneg h0] at he
  refine ⟨h1, hf, ?_, he⟩
  have := (abs_le.1 he).1
  have hu1 : u64 ≤ 1 := by have := u64_small; have := u64_pos; nlinarith
  have : u64 * (|x.val| + |y.val|) ≤ 1 * (|x.val| + |y.val|) := mul_le_mul_of_nonneg_right hu1 h0
  clear h1 hx hy
  linarith

/-- The pairs the SMAPE loop does not skip. -/
def smapeKept (l : List (F64 × F64)) : List (F64 × F64) := l.filter fun p => !(p.2.feq FP.zero && p.1.feq FP.zero)

theorem smape_fold (l : List (F64 × F64)) : ∀ s : F64 × F64, l.foldl smapeStep s =
    (((smapeKept l).map fun p => (p.2.sub p.1).abs).foldl FP.add s.1, ((smapeKept l).map fun p => p.1.abs.add p.2.abs).foldl FP.add s.2) := by
  induction l with
  | nil => intro s; rfl
  | cons p l ih =>
    intro s
    rw [List.foldl_cons, ih]
    unfold smapeKept smapeStep
    rw [List.filter_cons]
    cases p.2.feq FP.zero && p.1.feq FP.zero <;> simp

theorem feq_zero_val {x : F64} (h : x.feq FP.zero = true) : x.val = 0 := by
  unfold FP.feq at h
  simp only [Bool.and_eq_true, decide_eq_true_eq, beq_iff_eq] at h
  rw [val_eq (by decide)]
  have h0 : (FP.zero : F64).scaled = 0 := by decide +kernel
  have : x.scaled = 0 := by rw [← h0]; simp_all
  rw [this]; simp

theorem smape_sum (l : List (F64 × F64)) (t : F64 × F64 → ℚ) (ht : ∀ p, p.1.val = 0 → p.2.val = 0 → t p = 0) :
    ((smapeKept l).map t).sum = (l.map t).sum := by
  induction l with
  | nil => rfl
  | cons p l ih =>
    unfold smapeKept at ih ⊢
    rw [List.filter_cons, List.map_cons, List.sum_cons]
    by_cases hz : (p.2.feq FP.zero && p.1.feq FP.zero) = true
    · have hz' := hz
      rw [Bool.and_eq_true] at hz'
      rw [ht p (feq_zero_val hz'.2) (feq_zero_val hz'.1), zero_add, if_neg (by rw [hz]; decide)]
      exact ih
    · rw [Bool.not_eq_true] at hz
      rw [if_pos (by rw [hz]; decide), List.map_cons, List.sum_cons, ih]

/-- C67: the symmetric percentage error as the code computes it. -/
theorem C67_smape (o g : List F64) (hl : o.length = g.length) (h1 : 1 ≤ o.length) (h2 : o.length ≤ 2 ^ 47) (ho : Moderate o) (hg : Moderate g)
    (he : (∃ x ∈ o, x.val ≠ 0) ∨ ∃ x ∈ g, x.val ≠ 0) :
    ∃ r, errorSmape o g = .ok r ∧ Close (16 * o.length + 10) r (exactSmape o g) := by
  have hz := zip_len hl
  refine ⟨_, by unfold errorSmape; rw [if_neg (by omega), smape_fold], ?_⟩
  unfold exactSmape
  rw [zipWith_eq_map_zip, zipWith_eq_map_zip]
  have hsub : ∀ p ∈ smapeKept (o.zip g), p ∈ o.zip g := fun p hp => (List.mem_filter.1 hp).1
  have hm : (smapeKept (o.zip g)).length ≤ o.length := by rw [← hz]; exact List.length_filter_le _ _
  have key1 : ∀ p ∈ smapeKept (o.zip g), _ := fun p hp => diff_err (ho _ (zip_mem_left (hsub p hp)).1) (hg _ (zip_mem_left (hsub p hp)).2)
  have key2 : ∀ p ∈ smapeKept (o.zip g), _ := fun p hp => magsum_err (ho _ (zip_mem_left (hsub p hp)).1) (hg _ (zip_mem_left (hsub p hp)).2)
  have hT1 : TermErr (smapeKept (o.zip g)) (fun p => (p.2.sub p.1).abs) (fun p => |p.2.val - p.1.val|) u64 0 := by
    refine ⟨fun p hp => abs_finite (key1 p hp).2.1, fun p hp => ?_, fun p hp => abs_nonneg _, fun p hp => ?_⟩
    · rw [val_abs']; exact abs_nonneg _
    · rw [val_abs', add_zero]; exact abs_close (key1 p hp).2.2
  have hT2 : TermErr (smapeKept (o.zip g)) (fun p => p.1.abs.add p.2.abs) (fun p => |p.1.val| + |p.2.val|) u64 0 := by
    refine ⟨fun p hp => (key2 p hp).2.1, fun p hp => (key2 p hp).2.2.1, fun p hp => add_nonneg (abs_nonneg _) (abs_nonneg _), fun p hp => ?_⟩
    rw [add_zero]; exact (key2 p hp).2.2.2
  have hB1 := sum_le_900 (smapeKept (o.zip g)) (fun p => |p.2.val - p.1.val|) (by omega)
    (fun p hp => le_trans (key1 p hp).1 (qpow_le (by norm_num)))
  have hB2 := sum_le_900 (smapeKept (o.zip g)) (fun p => |p.1.val| + |p.2.val|) (by omega)
    (fun p hp => le_trans (key2 p hp).1 (qpow_le (by norm_num)))
  have hu := u64_pos
  have hus := u64_small
  have hu1 : u64 ≤ 1 := by nlinarith
  obtain ⟨uf, u0, ue⟩ := fsum_approx hT1 (by omega) hu.le hu1 le_rfl zero_le_one hB1
  obtain ⟨df, d0, de⟩ := fsum_approx hT2 (by omega) hu.le hu1 le_rfl zero_le_one hB2
  have hS10 := hT1.sum_nonneg
  have hS20 := hT2.sum_nonneg
  rw [smape_sum _ _ (by intro p h1 h2; rw [h1, h2]; simp)] at ue de hS10 hS20
  rw [mul_zero, add_zero] at ue de
  clear hB1 hB2 hT1 hT2 key1 key2
  -- the denominator is positive
  have hle : ((o.zip g).map fun p => |p.2.val - p.1.val|).sum ≤ ((o.zip g).map fun p => |p.1.val| + |p.2.val|).sum := by
    apply List.sum_le_sum
    intro p _
    rw [add_comm]; exact abs_sub _ _
  have hpos : 0 < ((o.zip g).map fun p => |p.1.val| + |p.2.val|).sum := by
    have hex : ∃ p ∈ o.zip g, 0 < |p.1.val| + |p.2.val| := by
      rcases he with ⟨x, hx, hx0⟩ | ⟨x, hx, hx0⟩
      · obtain ⟨i, hi, rfl⟩ := List.mem_iff_getElem.1 hx
        refine ⟨(o.zip g)[i]'(by rw [hz]; exact hi), List.getElem_mem _, ?_⟩
        rw [List.getElem_zip]
        exact add_pos_of_pos_of_nonneg (abs_pos.2 hx0) (abs_nonneg _)
      · obtain ⟨i, hi, rfl⟩ := List.mem_iff_getElem.1 hx
        refine ⟨(o.zip g)[i]'(by rw [hz]; omega), List.getElem_mem _, ?_⟩
        rw [List.getElem_zip]
        exact add_pos_of_nonneg_of_pos (abs_nonneg _) (abs_pos.2 hx0)
    obtain ⟨p, hp, hp0⟩ := hex
    refine lt_of_lt_of_le hp0 (List.single_le_sum ?_ _ (List.mem_map.2 ⟨p, hp, rfl⟩))
    intro v hv
    obtain ⟨q, _, rfl⟩ := List.mem_map.1 hv
    exact add_nonneg (abs_nonneg _) (abs_nonneg _)
  have hlit : (F64.lit (o.length : Nat)).val = o.length := by
    rw [lit_val' (by
      rw [Int.natAbs_natCast]
      exact le_trans h2 (Nat.pow_le_pow_right (by norm_num) (by norm_num)))]
    simp
  have hlitf : (F64.lit (o.length : Nat)).isFinite = true := (F64.lit_exact (by
      rw [Int.natAbs_natCast]
      exact le_trans h2 (Nat.pow_le_pow_right (by norm_num) (by norm_num)))).2
  have hn1 : (1 : ℚ) ≤ o.length := by exact_mod_cast h1
  have hn : (o.length : ℚ) * u64 ≤ 1 / 64 := by
    have hk : (o.length : ℚ) ≤ 2 ^ 47 := by exact_mod_cast h2
    nlinarith
  have hmn : ((smapeKept (o.zip g)).length : ℚ) ≤ o.length := by exact_mod_cast hm
  have hmu : ((smapeKept (o.zip g)).length : ℚ) * u64 ≤ o.length * u64 := mul_le_mul_of_nonneg_right hmn hu.le
  have hu64 : u64 ≤ 1 / 64 := by nlinarith
  set U := ((smapeKept (o.zip g)).map fun p => (p.2.sub p.1).abs).foldl FP.add FP.zero with hU
  set D := ((smapeKept (o.zip g)).map fun p => p.1.abs.add p.2.abs).foldl FP.add FP.zero with hD
  change |U.val - _| ≤ _ at ue
  change |D.val - _| ≤ _ at de
  change U.isFinite = true at uf
  change D.isFinite = true at df
  change 0 ≤ U.val at u0
  clear hU hD
  clear_value U D
  generalize ((o.zip g).map fun p => |p.2.val - p.1.val|).sum = T1 at *
  generalize ((o.zip g).map fun p => |p.1.val| + |p.2.val|).sum = T2 at *
  generalize ((smapeKept (o.zip g)).length : ℚ) = m at *
  have hq1 : T1 / T2 ≤ 1 := (div_le_one hpos).2 hle
  have hq0 : 0 ≤ T1 / T2 := div_nonneg hS10 hpos.le
  obtain ⟨-, rf, re⟩ := ratio_round (ρ := (4 * o.length + 1) * u64) (α := 0) (w := 0) uf df u0 hS10 hpos (by nlinarith) (by nlinarith) le_rfl (by
      rw [add_zero]
      exact le_trans ue (mul_le_mul_of_nonneg_right (by nlinarith) hS10)) (by
      exact le_trans de (mul_le_mul_of_nonneg_right (by nlinarith) hS20)) (by simp) (by
      refine le_trans (show _ ≤ (2 : ℚ) ^ 1 by linarith) (qpow_le (by norm_num)))
  rw [mul_zero, add_zero] at re
  have hz1 : (1 : ℚ) / 2 ^ 1075 ≤ 1 := le_trans (tiny_le (Nat.zero_le _)) (by norm_num)
  have hz0 := tiny_nonneg 1075
  have hn0 : (0 : ℚ) < o.length := by linarith
  have hQ : |(U.div D).val| ≤ 2 * (T1 / T2) + 1 / 2 ^ 1075 := by
    have := abs_sub_abs_le_abs_sub (U.div D).val (T1 / T2)
    rw [abs_of_nonneg hq0] at this
    have h3 : (4 * ((4 * (o.length : ℚ) + 1) * u64) + 2 * u64) * (T1 / T2) ≤ 1 * (T1 / T2) := mul_le_mul_of_nonneg_right (by nlinarith) hq0
    generalize (1 : ℚ) / 2 ^ 1075 = z at *
    linarith
  obtain ⟨ff, fe⟩ := div_err rf hlitf (by rw [hlit]; exact hn0.ne') (by
    rw [hlit, abs_div, abs_of_pos hn0, div_le_iff₀ hn0]
    have h4 : |(U.div D).val| ≤ 2 ^ 2 := by
      generalize (1 : ℚ) / 2 ^ 1075 = z at *
      linarith
    exact le_trans h4 (le_trans (qpow_le (by norm_num)) (le_mul_of_one_le_right (pow_pos (by norm_num) _).le hn1)))
  have fe' := le_trans fe (ulpErr_le _)
  rw [hlit] at fe'
  refine ⟨ff, ?_⟩
  have e70 : (1 : ℚ) / 2 ^ 1070 = 32 * (1 / 2 ^ 1075) := by
    rw [show 1075 = 1070 + 5 from rfl, pow_add]
    have : (0 : ℚ) < 2 ^ 1070 := pow_pos (by norm_num) _
    generalize (2 : ℚ) ^ 1070 = A at *
    field_simp; norm_num
  rw [e70]
  have e53 : |(U.div D).val / o.length| / 2 ^ 53 = u64 * |(U.div D).val / o.length| := by unfold u64; ring
  rw [e53] at fe'
  have ec : (16 * (o.length : ℚ) + 10) / 2 ^ 53 = (16 * o.length + 10) * u64 := by unfold u64; ring
  rw [ec]
  have hdq : |(U.div D).val / o.length - T1 / T2 / o.length| ≤ (4 * ((4 * (o.length : ℚ) + 1) * u64) + 2 * u64) * (T1 / T2 / o.length) + 1 / 2 ^ 1075 := by
    rw [← sub_div, abs_div, abs_of_pos hn0, div_le_iff₀ hn0]
    refine le_trans re ?_
    generalize (4 * ((4 * (o.length : ℚ) + 1) * u64) + 2 * u64) = K
    rw [add_mul, mul_assoc, div_mul_cancel₀ _ hn0.ne']
    exact add_le_add le_rfl (le_mul_of_one_le_right hz0 hn1)
  have hQn : |(U.div D).val / o.length| ≤ 2 * (T1 / T2 / o.length) + 1 / 2 ^ 1075 := by
    rw [abs_div, abs_of_pos hn0, div_le_iff₀ hn0, add_mul, mul_assoc, div_mul_cancel₀ _ hn0.ne']
    exact le_trans hQ (add_le_add le_rfl (le_mul_of_one_le_right hz0 hn1))
  have hqn0 : 0 ≤ T1 / T2 / o.length := div_nonneg hq0 hn0.le
  have tri := abs_sub_le ((U.div D).div (F64.lit (o.length : Nat))).val ((U.div D).val / o.length) (T1 / T2 / o.length)
  have h6 : u64 * |(U.div D).val / o.length| ≤ u64 * (2 * (T1 / T2 / o.length) + 1 / 2 ^ 1075) := mul_le_mul_of_nonneg_left hQn hu.le
  have h7 : u64 * (1 / 2 ^ 1075) ≤ 1 * (1 / 2 ^ 1075) := mul_le_mul_of_nonneg_right hu1 hz0
  have h8 : 0 ≤ u64 * (T1 / T2 / o.length) := mul_nonneg hu.le hqn0
  clear e53 ec fe e70 hz1 hQ re rf ff
  generalize (1 : ℚ) / 2 ^ 1075 = z at *
  generalize |(U.div D).val / (o.length : ℚ)| = a at *
  generalize T1 / T2 / (o.length : ℚ) = q at *
  refine le_trans tri ?_
  refine le_trans (add_le_add fe' hdq) ?_
  have h9 : (4 * ((4 * (o.length : ℚ) + 1) * u64) + 2 * u64) * q = 16 * o.length * (u64 * q) + 6 * (u64 * q) := by ring
  have h10 : (16 * (o.length : ℚ) + 10) * u64 * q = 16 * o.length * (u64 * q) + 10 * (u64 * q) := by ring
  rw [h9, h10]
  rw [mul_add] at h6
  have h11 : u64 * (2 * q) = 2 * (u64 * q) := by ring
  rw [h11] at h6
  linarith

/-! ### The hypotheses can be met, and the formulas are the expected ones -/

theorem moderate_lits (l : List Int) (h : ∀ n ∈ l, n.natAbs ≤ 2 ^ 53) : Moderate (l.map F64.lit) := by
  intro x hx
  obtain ⟨n, hn, rfl⟩ := List.mem_map.1 hx
  refine ⟨(F64.lit_exact (h n hn)).2, ?_⟩
  rw [lit_val' (h n hn)]
  have h1 : |(n : ℚ)| ≤ 2 ^ 53 := by
    have : (((n.natAbs : Nat) : Int) : ℚ) ≤ 2 ^ 53 := by exact_mod_cast h n hn
    rw [Int.natCast_natAbs, Int.cast_abs] at this
    exact this
  exact le_trans h1 (qpow_le (by norm_num))

theorem val_lit2 : (F64.lit 2).val = 2 := by rw [lit_val' (by decide)]; norm_num
theorem val_lit3 : (F64.lit 3).val = 3 := by rw [lit_val' (by decide)]; norm_num
theorem val_lit4 : (F64.lit 4).val = 4 := by rw [lit_val' (by decide)]; norm_num

example : exactMae [F64.lit 2, F64.lit 4] [F64.lit 3, F64.lit 4] = 1 / 2 := by unfold exactMae; simp [val_lit2, val_lit3, val_lit4]; norm_num
example : exactMse [F64.lit 2, F64.lit 4] [F64.lit 4, F64.lit 4] = 2 := by unfold exactMse; simp [val_lit2, val_lit4]; norm_num
example : exactNmse [F64.lit 2, F64.lit 4] [F64.lit 3, F64.lit 4] = 1 / 20 := by unfold exactNmse; simp [val_lit2, val_lit3, val_lit4]; norm_num
example : exactMape [F64.lit 2, F64.lit 4] [F64.lit 3, F64.lit 4] = 1 / 4 := by unfold exactMape; simp [val_lit2, val_lit3, val_lit4]; norm_num
example : exactSmape [F64.lit 2, F64.lit 4] [F64.lit 3, F64.lit 4] = 1 / 26 := by unfold exactSmape; simp [val_lit2, val_lit3, val_lit4]; norm_num

/-- Hypotheses of the theorems at integer samples; the lists stay folded so that no float is evaluated. -/
theorem lits_meet (a b : List Int) (ha : ∀ n ∈ a, n.natAbs ≤ 2 ^ 53) (hb : ∀ n ∈ b, n.natAbs ≤ 2 ^ 53) (hl : a.length = b.length) (h1 : 1 ≤ a.length) (h2 : a.length ≤ 2 ^ 47)
    (h0 : ∃ n ∈ a, n ≠ 0) :
    (∃ r, errorMae (a.map F64.lit) (b.map F64.lit) = .ok r ∧ Close (4 * (a.map F64.lit).length + 4) r (exactMae (a.map F64.lit) (b.map F64.lit))) ∧
    (∃ r, errorSmape (a.map F64.lit) (b.map F64.lit) = .ok r ∧ Close (16 * (a.map F64.lit).length + 10) r (exactSmape (a.map F64.lit) (b.map F64.lit))) := by
  refine ⟨C67_mae _ _ (by simp [hl]) (by simp [h1]) (by rw [List.length_map]; exact le_trans h2 (by norm_num)) (moderate_lits a ha) (moderate_lits b hb),
    C67_smape _ _ (by simp [hl]) (by simp [h1]) (by rw [List.length_map]; exact h2) (moderate_lits a ha) (moderate_lits b hb) (.inl ?_)⟩
  obtain ⟨n, hn, hn0⟩ := h0
  exact ⟨F64.lit n, List.mem_map_of_mem hn, by rw [lit_val' (ha n hn)]; exact_mod_cast hn0⟩
example := lits_meet [2, 4] [3, 4] (by decide) (by decide) rfl (by decide) (by decide) ⟨2, by decide, by decide⟩
example : 1 / 2 ^ 500 ≤ (([F64.lit 2, F64.lit 4] : List F64).map fun x => x.val ^ 2).sum ∧
    exactNmse [F64.lit 2, F64.lit 4] [F64.lit 3, F64.lit 4] ≤ 2 ^ 1000 := by
  constructor
  · simp only [List.map_cons, List.map_nil, List.sum_cons, List.sum_nil, val_lit2, val_lit4]
    exact le_trans (tiny_le (Nat.zero_le _)) (by norm_num)
  · have e : exactNmse [F64.lit 2, F64.lit 4] [F64.lit 3, F64.lit 4] = 1 / 20 := by unfold exactNmse; simp [val_lit2, val_lit3, val_lit4]; norm_num
    rw [e]
    exact le_trans (by norm_num : (1 : ℚ) / 20 ≤ 1) (one_le_pow₀ (by norm_num))
example : ∀ x ∈ [F64.lit 2, F64.lit 4], 1 / 2 ^ 400 ≤ |x.val| := by
  intro x hx
  simp only [List.mem_cons, List.not_mem_nil, or_false] at hx
  rcases hx with h | h <;> rw [h]
  · rw [val_lit2]; exact le_trans (tiny_le (Nat.zero_le _)) (by norm_num)
  · rw [val_lit4]; exact le_trans (tiny_le (Nat.zero_le _)) (by norm_num)

end Atsc
