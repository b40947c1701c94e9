import Verif.Model.Float
import Mathlib.Tactic.Ring
import Mathlib.Tactic.Linarith
import Mathlib.Order.Monotone.Basic

/-! Magnitude patterns: strict monotonicity, floor and round-to-nearest-even facts. -/
namespace Atsc

theorem magVal_succ (mb k : Nat) : magVal mb (k + 1) = magVal mb k + 2 ^ magShift mb k := by
  unfold magVal
  have hM : 0 < 2 ^ mb := Nat.two_pow_pos _
  generalize hMd : 2 ^ mb = M at *
  have hs : magShift mb k = k / M - 1 := by simp [magShift, hMd]
  have hs' : magShift mb (k+1) = (k+1) / M - 1 := by simp [magShift, hMd]
  have hk := Nat.div_add_mod k M
  have hr := Nat.mod_lt k hM
  generalize he : k / M = e at *
  generalize hf : k % M = f at *
  by_cases hlt : f + 1 < M
  · have h1 : (k + 1) / M = e := by
      rw [← hk, Nat.add_assoc, Nat.mul_add_div hM, Nat.div_eq_of_lt hlt, Nat.add_zero]
    rw [hs', hs, h1]
    have : (e - 1) * M ≤ k := by
      calc (e-1) * M ≤ e * M := Nat.mul_le_mul_right _ (Nat.sub_le _ _)
        _ ≤ k := by rw [← hk, Nat.mul_comm]; omega
    rw [Nat.sub_add_comm this, Nat.add_mul, Nat.one_mul]
  · have hfM : f + 1 = M := by omega
    have hk1 : k + 1 = (e + 1) * M := by rw [← hk, Nat.add_assoc, hfM]; ring
    have h1 : (k + 1) / M = e + 1 := by rw [hk1, Nat.mul_div_cancel _ hM]
    rw [hs', hs, h1, Nat.add_sub_cancel]
    rcases Nat.eq_zero_or_pos e with rfl | hepos
    · simp
    · obtain ⟨e', rfl⟩ : ∃ e', e = e' + 1 := ⟨e - 1, by omega⟩
      simp only [Nat.add_sub_cancel]
      have e1 : k + 1 - (e' + 1) * M = M := by rw [hk1]; apply Nat.sub_eq_of_eq_add; ring
      have e2 : k - e' * M = 2 * M - 1 := by
        have h3 : (e' + 1 + 1) * M = e' * M + 2 * M := by ring
        omega
      rw [e1, e2, pow_succ]
      have : 2 * M - 1 + 1 = 2 * M := by omega
      calc M * (2 ^ e' * 2) = (2 * M - 1 + 1) * 2 ^ e' := by rw [this]; ring
        _ = _ := by ring

theorem magVal_strictMono (mb : Nat) : StrictMono (magVal mb) :=
  strictMono_nat_of_lt_succ fun k => by rw [magVal_succ]; exact Nat.lt_add_of_pos_right (Nat.two_pow_pos _)

theorem magVal_lt_iff {mb a b : Nat} : magVal mb a < magVal mb b ↔ a < b := (magVal_strictMono mb).lt_iff_lt
theorem magVal_le_iff {mb a b : Nat} : magVal mb a ≤ magVal mb b ↔ a ≤ b := (magVal_strictMono mb).le_iff_le
theorem magVal_inj {mb a b : Nat} : magVal mb a = magVal mb b ↔ a = b := (magVal_strictMono mb).injective.eq_iff

@[simp] theorem magVal_zero (mb : Nat) : magVal mb 0 = 0 := by simp [magVal, magShift]

theorem magVal_eq_zero {mb k : Nat} : magVal mb k = 0 ↔ k = 0 := by
  have := magVal_inj (mb := mb) (a := k) (b := 0)
  rwa [magVal_zero] at this

theorem magVal_small {mb k : Nat} (h : k < 2 ^ (mb + 1)) : magVal mb k = k := by
  have : k / 2 ^ mb < 2 := by rw [Nat.div_lt_iff_lt_mul (Nat.two_pow_pos _)]; rw [pow_succ] at h; omega
  have : k / 2 ^ mb - 1 = 0 := by omega
  simp [magVal, magShift, this]

/-- Pattern of mantissa `m` (with hidden bit, `2^mb ≤ m < 2^(mb+1)`) shifted by `s`. -/
theorem magVal_shift {mb s m : Nat} (h1 : 2 ^ mb ≤ m) (h2 : m < 2 ^ (mb + 1)) :
    magVal mb (s * 2 ^ mb + m) = m * 2 ^ s ∧ magShift mb (s * 2 ^ mb + m) = s := by
  have hM : 0 < 2 ^ mb := Nat.two_pow_pos _
  have hm : m / 2 ^ mb = 1 := by
    rw [pow_succ] at h2
    apply Nat.div_eq_of_lt_le <;> omega
  have hs : magShift mb (s * 2 ^ mb + m) = s := by
    unfold magShift
    rw [Nat.mul_comm s, Nat.mul_add_div hM, hm]; omega
  refine ⟨?_, hs⟩
  unfold magVal
  rw [hs, Nat.add_sub_cancel_left]

theorem floorPat_spec (mb n : Nat) :
    magVal mb (floorPat mb n) ≤ n ∧ n < magVal mb (floorPat mb n + 1) := by
  by_cases hn : n < 2 ^ (mb + 1)
  · have hlog : n.log2 - mb = 0 := by
      rcases Nat.eq_zero_or_pos n with rfl | hp
      · simp
      · have : n.log2 < mb + 1 := (Nat.log2_lt (by omega)).2 hn
        omega
    have hfp : floorPat mb n = n := by simp [floorPat, hlog]
    rw [hfp, magVal_small hn]
    refine ⟨Nat.le_refl _, ?_⟩
    have := magVal_strictMono mb (Nat.lt_succ_self n)
    rw [magVal_small hn] at this
    exact this
  · have hn : 2 ^ (mb + 1) ≤ n := by omega
    have hn0 : n ≠ 0 := by have := Nat.two_pow_pos (mb+1); omega
    have hlog : mb + 1 ≤ n.log2 := (Nat.le_log2 hn0).2 hn
    obtain ⟨s, hs⟩ : ∃ s, n.log2 = mb + s := ⟨n.log2 - mb, by omega⟩
    have hsub : n.log2 - mb = s := by omega
    have hlo : 2 ^ (mb + s) ≤ n := hs ▸ Nat.log2_self_le hn0
    have hhi : n < 2 ^ (mb + s + 1) := hs ▸ Nat.lt_log2_self
    have h1 : 2 ^ mb ≤ n / 2 ^ s := by
      rw [Nat.le_div_iff_mul_le (Nat.two_pow_pos _), ← pow_add]; exact hlo
    have h2 : n / 2 ^ s < 2 ^ (mb + 1) := by
      rw [Nat.div_lt_iff_lt_mul (Nat.two_pow_pos _), ← pow_add]
      convert hhi using 2; omega
    have hv := magVal_shift (s := s) h1 h2
    have hfp : floorPat mb n = s * 2 ^ mb + n / 2 ^ s := by simp [floorPat, hsub]
    rw [hfp, magVal_succ, hv.1, hv.2]
    refine ⟨Nat.div_mul_le_self _ _, ?_⟩
    have := Nat.lt_div_mul_add (a := n) (Nat.two_pow_pos s)
    omega

/-- The floor pattern is characterised by its bracket. -/
theorem floorPat_unique {mb n k : Nat} (h1 : magVal mb k ≤ n) (h2 : n < magVal mb (k + 1)) :
    floorPat mb n = k := by
  have ⟨a, b⟩ := floorPat_spec mb n
  have := magVal_lt_iff.1 (Nat.lt_of_le_of_lt h1 b)
  have := magVal_lt_iff.1 (Nat.lt_of_le_of_lt a h2)
  omega

@[simp] theorem floorPat_magVal (mb k : Nat) : floorPat mb (magVal mb k) = k :=
  floorPat_unique (Nat.le_refl _) (magVal_strictMono mb (Nat.lt_succ_self k))

/-- Bracket of `p / q` by consecutive patterns. -/
theorem floorPat_div_spec (mb p : Nat) {q : Nat} (hq : 0 < q) :
    magVal mb (floorPat mb (p / q)) * q ≤ p ∧ p < magVal mb (floorPat mb (p / q) + 1) * q := by
  have ⟨a, b⟩ := floorPat_spec mb (p / q)
  exact ⟨(Nat.le_div_iff_mul_le hq).1 a, (Nat.div_lt_iff_lt_mul hq).1 b⟩

/-- `roundPat` returns one of the two neighbours and is within half their distance. -/
theorem roundPat_cases (mb p : Nat) {q : Nat} (_hq : 0 < q) :
    (roundPat mb p q = floorPat mb (p / q) ∧
      2 * p ≤ (magVal mb (floorPat mb (p / q)) + magVal mb (floorPat mb (p / q) + 1)) * q) ∨
    (roundPat mb p q = floorPat mb (p / q) + 1 ∧
      (magVal mb (floorPat mb (p / q)) + magVal mb (floorPat mb (p / q) + 1)) * q ≤ 2 * p) := by
  unfold roundPat
  dsimp only
  split
  · left; exact ⟨rfl, by omega⟩
  · split
    · right; exact ⟨rfl, by omega⟩
    · split
      · left; exact ⟨rfl, by omega⟩
      · right; exact ⟨rfl, by omega⟩

/-- Rounding is exact on representable values. -/
theorem roundPat_exact (mb k : Nat) {q : Nat} (hq : 0 < q) : roundPat mb (magVal mb k * q) q = k := by
  have hf : floorPat mb (magVal mb k * q / q) = k := by rw [Nat.mul_div_cancel _ hq, floorPat_magVal]
  unfold roundPat
  simp only [hf]
  have : 2 * (magVal mb k * q) < (magVal mb k + magVal mb (k+1)) * q := by
    have : magVal mb k < magVal mb (k+1) := magVal_strictMono mb (Nat.lt_succ_self k)
    calc 2 * (magVal mb k * q) = (magVal mb k + magVal mb k) * q := by ring
      _ < _ := Nat.mul_lt_mul_of_pos_right (by omega) hq
  simp [this]

theorem roundPat_one_magVal (mb k : Nat) : roundPat mb (magVal mb k) 1 = k := by
  have := roundPat_exact mb k Nat.one_pos
  simpa using this

/-- If `p/q` is at most a representable value, so is its rounding. -/
theorem roundPat_le_of_le {mb p q k : Nat} (hq : 0 < q) (h : p ≤ magVal mb k * q) :
    roundPat mb p q ≤ k := by
  have ⟨a, b⟩ := floorPat_div_spec mb p hq
  have hfk : floorPat mb (p / q) ≤ k := by
    have : magVal mb (floorPat mb (p / q)) ≤ magVal mb k := by
      have := Nat.le_trans a h
      exact Nat.le_of_mul_le_mul_right this hq
    exact magVal_le_iff.1 this
  rcases roundPat_cases mb p hq with ⟨e, _⟩ | ⟨e, h2⟩
  · omega
  · rw [e]
    rcases Nat.lt_or_ge (floorPat mb (p / q)) k with hlt | hge
    · exact hlt
    · exfalso
      have hk : floorPat mb (p / q) = k := by omega
      rw [hk] at h2 a
      have : magVal mb k < magVal mb (k+1) := magVal_strictMono mb (Nat.lt_succ_self k)
      have : (magVal mb k + magVal mb k) * q < (magVal mb k + magVal mb (k+1)) * q :=
        Nat.mul_lt_mul_of_pos_right (by omega) hq
      have : (magVal mb k + magVal mb k) * q = 2 * (magVal mb k * q) := by ring
      omega

/-- If `p/q` is at least a representable value, so is its rounding. -/
theorem le_roundPat_of_le {mb p q k : Nat} (hq : 0 < q) (h : magVal mb k * q ≤ p) :
    k ≤ roundPat mb p q := by
  have ⟨a, b⟩ := floorPat_div_spec mb p hq
  have hfk : k ≤ floorPat mb (p / q) := by
    have : magVal mb k < magVal mb (floorPat mb (p / q) + 1) := by
      have := Nat.lt_of_le_of_lt h b
      exact Nat.lt_of_mul_lt_mul_right this
    have := magVal_lt_iff.1 this
    omega
  rcases roundPat_cases mb p hq with ⟨e, _⟩ | ⟨e, h2⟩ <;> omega

/-- Nearest: no representable value is closer to `p/q` than the rounded one. -/
theorem roundPat_nearest (mb p : Nat) {q : Nat} (hq : 0 < q) (k : Nat) :
    ((magVal mb (roundPat mb p q) * q : Nat) - (p : Int)).natAbs ≤ ((magVal mb k * q : Nat) - (p : Int)).natAbs := by
  have ⟨a, b⟩ := floorPat_div_spec mb p hq
  generalize hf : floorPat mb (p / q) = f at *
  have hc := roundPat_cases mb p hq
  rw [hf, Nat.add_mul] at hc
  have key : k ≤ f ∨ f + 1 ≤ k := by omega
  have hk : magVal mb k * q ≤ magVal mb f * q ∨ magVal mb (f+1) * q ≤ magVal mb k * q := by
    rcases key with h | h
    · left; exact Nat.mul_le_mul_right _ (magVal_le_iff.2 h)
    · right; exact Nat.mul_le_mul_right _ (magVal_le_iff.2 h)
  rcases hc with ⟨e, h2⟩ | ⟨e, h2⟩ <;> rw [e] <;> omega

/-- Rounding is monotone in the exact value. -/
theorem roundPat_mono {mb p q p' q' : Nat} (hq : 0 < q) (hq' : 0 < q') (h : p * q' ≤ p' * q) :
    roundPat mb p q ≤ roundPat mb p' q' := by
  have ⟨a, b⟩ := floorPat_div_spec mb p hq
  have ⟨a', b'⟩ := floorPat_div_spec mb p' hq'
  generalize hf : floorPat mb (p / q) = f at *
  generalize hf' : floorPat mb (p' / q') = f' at *
  have hff : f ≤ f' := by
    have h1 : p / q ≤ p' / q' := by
      rw [Nat.le_div_iff_mul_le hq']
      have : p / q * q ≤ p := Nat.div_mul_le_self _ _
      have h2 : p / q * q' * q ≤ p' * q := by
        calc p / q * q' * q = (p / q * q) * q' := by ring
          _ ≤ p * q' := Nat.mul_le_mul_right _ this
          _ ≤ p' * q := h
      exact Nat.le_of_mul_le_mul_right h2 hq
    have s1 := (floorPat_spec mb (p / q)).1
    have s2 := (floorPat_spec mb (p' / q')).2
    rw [hf] at s1; rw [hf'] at s2
    have := magVal_lt_iff.1 (show magVal mb f < magVal mb (f' + 1) by omega)
    omega
  rcases Nat.lt_or_ge f f' with hlt | hge
  · have h1 : roundPat mb p q ≤ f + 1 := by
      rcases roundPat_cases mb p hq with ⟨e, _⟩ | ⟨e, _⟩ <;> rw [e, hf] <;> omega
    have h2 : f' ≤ roundPat mb p' q' := by
      rcases roundPat_cases mb p' hq' with ⟨e, _⟩ | ⟨e, _⟩ <;> rw [e, hf'] <;> omega
    omega
  · have : f = f' := by omega
    subst this
    unfold roundPat
    simp only [hf, hf']
    generalize hm : magVal mb f + magVal mb (f + 1) = m
    have hx : ∀ {x}, x * q' ≤ x * q' := fun {x} => Nat.le_refl _
    have c1 : 2 * p < m * q ∨ m * q < 2 * p ∨ 2 * p = m * q := by omega
    have c2 : 2 * p' < m * q' ∨ m * q' < 2 * p' ∨ 2 * p' = m * q' := by omega
    -- compare through cross multiplication
    have t1 : m * q < 2 * p → m * q' < 2 * p' := fun hh => by
      have : m * q' * q < 2 * p' * q := by
        calc m * q' * q = m * q * q' := by ring
          _ < 2 * p * q' := Nat.mul_lt_mul_of_pos_right hh hq'
          _ = 2 * (p * q') := by ring
          _ ≤ 2 * (p' * q) := by omega
          _ = 2 * p' * q := by ring
      exact Nat.lt_of_mul_lt_mul_right this
    have t2 : 2 * p = m * q → m * q' ≤ 2 * p' := fun hh => by
      have : m * q' * q ≤ 2 * p' * q := by
        calc m * q' * q = m * q * q' := by ring
          _ = 2 * p * q' := by rw [hh]
          _ = 2 * (p * q') := by ring
          _ ≤ 2 * (p' * q) := by omega
          _ = 2 * p' * q := by ring
      exact Nat.le_of_mul_le_mul_right this hq
    rcases c1 with c | c | c
    · have : ¬ (m * q < 2 * p) := by omega
      simp only [c, if_true]
      split_ifs <;> omega
    · have h3 := t1 c
      have n1 : ¬ (2 * p < m * q) := by omega
      have n2 : ¬ (2 * p' < m * q') := by omega
      simp [c, h3, n1, n2]
    · have h3 := t2 c
      have n1 : ¬ (2 * p < m * q) := by omega
      have n2 : ¬ (m * q < 2 * p) := by omega
      have n3 : ¬ (2 * p' < m * q') := by omega
      simp only [n1, n2, n3, if_false]
      split_ifs <;> omega

/-- Rounding only depends on the quotient. -/
theorem roundPat_congr {mb p q p' q' : Nat} (hq : 0 < q) (hq' : 0 < q') (h : p * q' = p' * q) :
    roundPat mb p q = roundPat mb p' q' :=
  Nat.le_antisymm (roundPat_mono hq hq' (Nat.le_of_eq h)) (roundPat_mono hq' hq (Nat.le_of_eq h.symm))

/-- Ties go to the even pattern. -/
theorem roundPat_tie_even {mb p q k : Nat} (_hq : 0 < q) (hk : floorPat mb (p / q) = k)
    (h : 2 * p = (magVal mb k + magVal mb (k + 1)) * q) : roundPat mb p q % 2 = 0 := by
  unfold roundPat
  simp only [hk, h, Nat.lt_irrefl, if_false]
  split_ifs <;> omega

end Atsc
