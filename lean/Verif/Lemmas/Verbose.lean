import Verif.Model.Verbose
import Verif.Lemmas.Shortest
/- `debugDigits` finds the shortest decimal (the proofs follow Lemmas/Shortest.lean). -/
namespace Atsc
open FP

/-- What `debugUp` compares. -/
theorem debug_frac (a : Nat) (k : Int) : ∃ n d : Nat, 0 < d ∧ decFloor a k = n / d ∧ debugUp a k = decide ((2 * (n / d) + 1) * d ≤ 2 * n) ∧
    (n : ℚ) / d * (10 : ℚ) ^ k = (a : ℚ) / 2 ^ qexp 52 11 := by
  have hQ := qpow_posQ 52 11
  unfold decFloor debugUp
  by_cases h : 0 ≤ k
  · refine ⟨a, 2 ^ qexp 52 11 * 10 ^ k.toNat, Nat.mul_pos (Nat.two_pow_pos _) (Nat.pow_pos (by decide)), by rw [if_pos h], by rw [if_pos h, if_pos h], ?_⟩
    conv_lhs => rw [← Int.toNat_of_nonneg h, zpow_natCast]
    generalize k.toNat = j
    have h10 : (10 : ℚ) ^ j ≠ 0 := pow_ne_zero _ (by norm_num)
    generalize qexp 52 11 = i at *
    push_cast
    rw [Int.toNat_natCast]
    field_simp
  · refine ⟨a * 10 ^ (-k).toNat, 2 ^ qexp 52 11, Nat.two_pow_pos _, by rw [if_neg h], by rw [if_neg h, if_neg h], ?_⟩
    have he : k = -((-k).toNat : Int) := by omega
    conv_lhs => rw [he, zpow_neg, zpow_natCast]
    generalize (-k).toNat = j
    have h10 : (10 : ℚ) ^ j ≠ 0 := pow_ne_zero _ (by norm_num)
    generalize qexp 52 11 = i at *
    push_cast
    rw [neg_neg, Int.toNat_natCast]
    field_simp

theorem debugUp_spec (a : Nat) (k : Int) :
    (debugUp a k = true → ((decFloor a k + 1 : Nat) : ℚ) * (10 : ℚ) ^ k - (a : ℚ) / 2 ^ qexp 52 11 ≤ (a : ℚ) / 2 ^ qexp 52 11 - (decFloor a k : ℚ) * (10 : ℚ) ^ k) ∧
    (debugUp a k = false → (a : ℚ) / 2 ^ qexp 52 11 - (decFloor a k : ℚ) * (10 : ℚ) ^ k < ((decFloor a k + 1 : Nat) : ℚ) * (10 : ℚ) ^ k - (a : ℚ) / 2 ^ qexp 52 11) := by
  obtain ⟨n, d, hd, hf, hu, hv⟩ := debug_frac a k
  have hd' : (0 : ℚ) < d := by exact_mod_cast hd
  have ht := ten_pos k
  rw [hf, hu, ← hv]
  generalize n / d = f
  generalize (10 : ℚ) ^ k = T at *
  have h4 : 2 * ((n : ℚ) / d) - (2 * f + 1) = ((2 * n : ℚ) - (2 * f + 1) * d) / d := by
    rw [sub_div, mul_div_assoc, mul_div_assoc, div_self hd'.ne', mul_one]
  generalize (n : ℚ) / d = r at *
  push_cast
  constructor
  · intro h2
    have h3 : ((2 * f + 1) * d : ℚ) ≤ 2 * n := by exact_mod_cast of_decide_eq_true h2
    have h5 : 0 ≤ 2 * r - (2 * f + 1) := by rw [h4]; exact div_nonneg (by linarith) hd'.le
    nlinarith
  · intro h2
    have h3 : (2 * n : ℚ) < (2 * f + 1) * d := by exact_mod_cast not_le.1 (of_decide_eq_false h2)
    have h5 : 2 * r - (2 * f + 1) < 0 := by rw [h4]; exact div_neg_of_neg_of_pos (by linarith) hd'
    nlinarith

/-- What the search finds at one exponent. -/
theorem debugNear_spec {x : F64} (hx : x.isNaN = false) {k : Int} {m : Nat} (h : (debugNear x.absVal k).find? (fun m => decRound x.sign m k = x) = some m) :
    decRound x.sign m k = x ∧ ∀ m', decRound x.sign m' k = x → |(m : ℚ) * (10 : ℚ) ^ k - absQ x| < |(m' : ℚ) * (10 : ℚ) ^ k - absQ x| ∨
      (|(m : ℚ) * (10 : ℚ) ^ k - absQ x| = |(m' : ℚ) * (10 : ℚ) ^ k - absQ x| ∧ m' ≤ m) := by
  have hm : decRound x.sign m k = x := by simpa using List.find?_some h
  refine ⟨hm, fun m' h' => ?_⟩
  obtain ⟨f1, f2⟩ := floor_le x.absVal k
  obtain ⟨u1, u2⟩ := debugUp_spec x.absVal k
  change _ ≤ absQ x at f1
  change absQ x < _ at f2
  have ht := ten_pos k
  change _ → ((decFloor x.absVal k + 1 : Nat) : ℚ) * (10 : ℚ) ^ k - absQ x ≤ absQ x - _ at u1
  change _ → absQ x - _ < _ - absQ x at u2
  have hbet := @reads_between x hx
  unfold debugNear at h
  generalize decFloor x.absVal k = f at *
  generalize absQ x = v at *
  have low : ∀ j : Nat, j ≤ f → |(j : ℚ) * (10 : ℚ) ^ k - v| = v - (j : ℚ) * (10 : ℚ) ^ k ∧ (j : ℚ) * (10 : ℚ) ^ k ≤ (f : ℚ) * (10 : ℚ) ^ k := by
    intro j hj
    have : (j : ℚ) * (10 : ℚ) ^ k ≤ (f : ℚ) * (10 : ℚ) ^ k := mul_le_mul_of_nonneg_right (by exact_mod_cast hj) ht.le
    exact ⟨by rw [abs_of_nonpos (by linarith)]; ring, this⟩
  have high : ∀ j : Nat, f + 1 ≤ j → |(j : ℚ) * (10 : ℚ) ^ k - v| = (j : ℚ) * (10 : ℚ) ^ k - v ∧ ((f + 1 : Nat) : ℚ) * (10 : ℚ) ^ k ≤ (j : ℚ) * (10 : ℚ) ^ k := by
    intro j hj
    have : ((f + 1 : Nat) : ℚ) * (10 : ℚ) ^ k ≤ (j : ℚ) * (10 : ℚ) ^ k := mul_le_mul_of_nonneg_right (by exact_mod_cast hj) ht.le
    exact ⟨by rw [abs_of_nonneg (by linarith)], this⟩
  have lowlt : ∀ j : Nat, j < f → (j : ℚ) * (10 : ℚ) ^ k < (f : ℚ) * (10 : ℚ) ^ k := fun j hj => mul_lt_mul_of_pos_right (by exact_mod_cast hj) ht
  have highlt : ∀ j : Nat, f + 1 < j → ((f + 1 : Nat) : ℚ) * (10 : ℚ) ^ k < (j : ℚ) * (10 : ℚ) ^ k := fun j hj => mul_lt_mul_of_pos_right (by exact_mod_cast hj) ht
  have lf := low f (le_refl _)
  have hf := high (f + 1) (le_refl _)
  -- reading back moves towards the neighbours
  have toF : ∀ j : Nat, j ≤ f → decRound x.sign j k = x → decRound x.sign f k = x := fun j hj hr => hbet hr (.inl ⟨(low j hj).2, f1⟩)
  have toF1 : ∀ j : Nat, f + 1 ≤ j → decRound x.sign j k = x → decRound x.sign (f + 1) k = x := fun j hj hr => hbet hr (.inr ⟨f2.le, (high j hj).2⟩)
  cases hu : debugUp x.absVal k with
  | true =>
    rw [hu, if_pos rfl] at h
    have hd := u1 hu
    by_cases h1 : decRound x.sign (f + 1) k = x
    · rw [List.find?_cons_of_pos (by simpa using h1)] at h
      have hmf := (Option.some.inj h).symm
      subst hmf
      rw [hf.1]
      rcases Nat.lt_or_ge f m' with hj | hj
      · rw [(high m' hj).1]
        rcases Nat.lt_or_ge (f + 1) m' with hj' | hj'
        · left; linarith [highlt m' hj']
        · have : m' = f + 1 := by omega
          subst this
          exact .inr ⟨rfl, le_refl _⟩
      · rw [(low m' hj).1]
        rcases lt_or_eq_of_le hd with hd | hd
        · left; linarith [(low m' hj).2]
        · rcases Nat.lt_or_ge m' f with hj' | hj'
          · left; linarith [lowlt m' hj']
          · have : m' = f := by omega
            subst this
            exact .inr ⟨by linarith, by omega⟩
    · rw [List.find?_cons_of_neg (by simpa using h1)] at h
      have hmf : m = f := by
        by_cases h2 : decRound x.sign f k = x
        · rw [List.find?_cons_of_pos (by simpa using h2)] at h
          exact (Option.some.inj h).symm
        · rw [List.find?_cons_of_neg (by simpa using h2)] at h; cases h
      subst hmf
      rw [lf.1]
      rcases Nat.lt_or_ge m m' with hj | hj
      · exact absurd (toF1 m' hj h') h1
      · rw [(low m' hj).1]
        rcases Nat.lt_or_ge m' m with hj' | hj'
        · left; linarith [lowlt m' hj']
        · have : m' = m := by omega
          subst this
          exact .inr ⟨rfl, le_refl _⟩
  | false =>
    rw [hu, if_neg (by decide)] at h
    have hd := u2 hu
    by_cases h1 : decRound x.sign f k = x
    · rw [List.find?_cons_of_pos (by simpa using h1)] at h
      have hmf := (Option.some.inj h).symm
      subst hmf
      rw [lf.1]
      rcases Nat.lt_or_ge m m' with hj | hj
      · rw [(high m' hj).1]
        left; linarith [(high m' hj).2]
      · rw [(low m' hj).1]
        rcases Nat.lt_or_ge m' m with hj' | hj'
        · left; linarith [lowlt m' hj']
        · have : m' = m := by omega
          subst this
          exact .inr ⟨rfl, le_refl _⟩
    · rw [List.find?_cons_of_neg (by simpa using h1)] at h
      have hmf : m = f + 1 := by
        by_cases h2 : decRound x.sign (f + 1) k = x
        · rw [List.find?_cons_of_pos (by simpa using h2)] at h
          exact (Option.some.inj h).symm
        · rw [List.find?_cons_of_neg (by simpa using h2)] at h; cases h
      subst hmf
      rw [hf.1]
      rcases Nat.lt_or_ge f m' with hj | hj
      · rw [(high m' hj).1]
        rcases Nat.lt_or_ge (f + 1) m' with hj' | hj'
        · left; linarith [highlt m' hj']
        · have : m' = f + 1 := by omega
          subst this
          exact .inr ⟨rfl, le_refl _⟩
      · exact absurd (toF m' hj h') h1

/-- Nothing is found at an exponent only if no multiple reads as `x`. -/
theorem debugNear_none {x : F64} (hx : x.isNaN = false) {k : Int} (h : (debugNear x.absVal k).find? (fun m => decRound x.sign m k = x) = none) (m' : Nat) :
    decRound x.sign m' k ≠ x := by
  intro h'
  obtain ⟨f1, f2⟩ := floor_le x.absVal k
  change _ ≤ absQ x at f1
  change absQ x < _ at f2
  have ht := ten_pos k
  have hall := List.find?_eq_none.1 h
  have hmem : decFloor x.absVal k ∈ debugNear x.absVal k ∧ decFloor x.absVal k + 1 ∈ debugNear x.absVal k := by
    unfold debugNear; split <;> simp
  rcases Nat.lt_or_ge (decFloor x.absVal k) m' with hj | hj
  · have := reads_between hx h' (m' := decFloor x.absVal k + 1) (e' := k) (.inr ⟨f2.le, mul_le_mul_of_nonneg_right (by exact_mod_cast hj) ht.le⟩)
    exact hall _ hmem.2 (by simpa using this)
  · have := reads_between hx h' (m' := decFloor x.absVal k) (e' := k) (.inl ⟨mul_le_mul_of_nonneg_right (by exact_mod_cast hj) ht.le, f1⟩)
    exact hall _ hmem.1 (by simpa using this)

/-- **The search.** For a finite double other than zero, `debugDigits` is the multiple of a power of ten that reads as the double, with the largest possible power of
ten; among these the nearest; of two equally near ones the larger. -/
theorem debugDigits_spec {x : F64} (hf : x.isFinite = true) (hx : x.absVal ≠ 0) :
    decRound x.sign (debugDigits x).1 (debugDigits x).2 = x ∧
    (∀ m' k', decRound x.sign m' k' = x → k' ≤ (debugDigits x).2) ∧
    ∀ m', decRound x.sign m' (debugDigits x).2 = x →
      |((debugDigits x).1 : ℚ) * (10 : ℚ) ^ (debugDigits x).2 - absQ x| < |(m' : ℚ) * (10 : ℚ) ^ (debugDigits x).2 - absQ x| ∨
      (|((debugDigits x).1 : ℚ) * (10 : ℚ) ^ (debugDigits x).2 - absQ x| = |(m' : ℚ) * (10 : ℚ) ^ (debugDigits x).2 - absQ x| ∧
        m' ≤ (debugDigits x).1) := by
  have hn := isFinite_not_nan hf
  have key : ∀ (l : List Nat) (g : Nat → Option (Nat × Int)), l.findSome? g ≠ none → ∃ pre i post r, l = pre ++ i :: post ∧ g i = some r ∧ l.findSome? g = some r ∧
      ∀ j ∈ pre, g j = none := by
    intro l g hne
    induction l with
    | nil => exact absurd rfl hne
    | cons a l ih =>
      cases ha : g a with
      | some r => exact ⟨[], a, l, r, rfl, ha, by rw [List.findSome?_cons, ha], by simp⟩
      | none =>
        rw [List.findSome?_cons, ha] at hne
        obtain ⟨pre, i, post, r, e, h1, h2, h3⟩ := ih hne
        refine ⟨a :: pre, i, post, r, by rw [e]; rfl, h1, by rw [List.findSome?_cons, ha]; exact h2, ?_⟩
        intro j hj
        rcases List.mem_cons.1 hj with rfl | hj
        · exact ha
        · exact h3 j hj
  generalize hg : (fun i : Nat => debugAt x (308 - (i : Int))) = g
  have hdef : debugDigits x = ((List.range 633).findSome? g).getD (0, 0) := by unfold debugDigits; rw [hg]
  have hne : (List.range 633).findSome? g ≠ none := by
    intro hc
    have := List.findSome?_eq_none_iff.1 hc 632 (List.mem_range.2 (by norm_num))
    rw [← hg] at this
    dsimp only at this
    rw [debugAt, Option.map_eq_none_iff] at this
    exact debugNear_none hn this _ (floor_reads hf)
  obtain ⟨pre, i, post, r, e, h1, h2, h3⟩ := key _ _ hne
  rw [hdef, h2, Option.getD_some]
  rw [← hg] at h1
  dsimp only at h1
  rw [debugAt, Option.map_eq_some_iff] at h1
  obtain ⟨m, hm, hr⟩ := h1
  rw [← hr]
  dsimp only
  obtain ⟨n1, n2⟩ := debugNear_spec hn hm
  refine ⟨n1, fun m' k' hk => ?_, n2⟩
  by_contra hc
  have hk308 := reads_exp_le hf hx hk
  -- the exponent k' was tried before
  have hi : pre.length = i := by
    have h4 : (List.range 633)[pre.length]? = some i := by rw [e]; simp
    obtain ⟨h5, h6⟩ := List.getElem?_eq_some_iff.1 h4
    rw [List.getElem_range] at h6; exact h6
  have hmem : (308 - k').toNat ∈ pre := by
    have hlt : (308 - k').toNat < pre.length := by omega
    have h7 : pre[(308 - k').toNat]? = (List.range 633)[(308 - k').toNat]? := by rw [e, List.getElem?_append_left hlt]
    rw [List.getElem?_eq_getElem hlt] at h7
    have h8 := (List.getElem?_eq_some_iff.1 h7.symm)
    obtain ⟨h9, h10⟩ := h8
    rw [List.getElem_range] at h10
    have := List.getElem_mem hlt
    rw [← h10] at this; exact this
  have h11 := h3 _ hmem
  rw [← hg] at h11
  dsimp only at h11
  rw [debugAt, Option.map_eq_none_iff] at h11
  have ek : (308 : Int) - ((308 - k').toNat : Int) = k' := by omega
  rw [ek] at h11
  exact debugNear_none hn h11 m' hk

end Atsc
