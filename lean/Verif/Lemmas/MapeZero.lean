import Verif.Props.Utils
import Verif.Lemmas.FloatMono
/- A MAPE that is at most zero means that the two series agree. -/
namespace Atsc
open FP

theorem magVal_gap (mb : Nat) {a b : Nat} (h : a < b) : magVal mb b ≤ 2 ^ (mb + 1) * (magVal mb b - magVal mb a) := by
  obtain ⟨c, rfl⟩ : ∃ c, b = c + 1 := ⟨b - 1, by omega⟩
  have h1 : magVal mb a ≤ magVal mb c := magVal_le_iff.2 (by omega)
  have h2 := magVal_succ mb c
  have h3 : magVal mb c ≤ (2 ^ (mb + 1) - 1) * 2 ^ magShift mb c := by
    unfold magVal
    apply Nat.mul_le_mul_right
    have hd := Nat.div_add_mod c (2 ^ mb)
    have hm := Nat.mod_lt c (Nat.two_pow_pos mb)
    unfold magShift
    rw [pow_succ]
    rcases Nat.eq_zero_or_pos (c / 2 ^ mb) with h0 | h0
    · rw [h0] at hd ⊢; simp only [Nat.zero_sub, Nat.zero_mul, Nat.sub_zero]; omega
    · obtain ⟨e, he⟩ : ∃ e, c / 2 ^ mb = e + 1 := ⟨_, (Nat.succ_pred (by omega)).symm⟩
      rw [he] at hd ⊢
      rw [Nat.mul_add, Nat.mul_comm (2 ^ mb) e] at hd
      simp only [Nat.add_sub_cancel]
      omega
  have hP : 1 ≤ 2 ^ (mb + 1) := Nat.one_le_two_pow
  have h4 : (2 ^ (mb + 1) - 1) * 2 ^ magShift mb c + 2 ^ magShift mb c = 2 ^ (mb + 1) * 2 ^ magShift mb c := by
    rw [Nat.sub_mul, Nat.one_mul]
    have : 2 ^ magShift mb c ≤ 2 ^ (mb + 1) * 2 ^ magShift mb c := Nat.le_mul_of_pos_left _ (by omega)
    omega
  have h5 : 2 ^ magShift mb c ≤ magVal mb (c + 1) - magVal mb a := by omega
  calc magVal mb (c + 1) ≤ 2 ^ (mb + 1) * 2 ^ magShift mb c := by omega
    _ ≤ _ := Nat.mul_le_mul_left _ h5

theorem magVal_double (mb : Nat) {k : Nat} (h : 1 ≤ k) : magVal mb (k + 1) ≤ 2 * magVal mb k := by
  rw [magVal_succ]
  have : 2 ^ magShift mb k ≤ magVal mb k := by
    unfold magVal
    apply Nat.le_mul_of_pos_left
    unfold magShift
    have hd := Nat.div_add_mod k (2 ^ mb)
    rcases Nat.eq_zero_or_pos (k / 2 ^ mb) with h0 | h0
    · rw [h0]; simp; omega
    · obtain ⟨e, he⟩ : ∃ e, k / 2 ^ mb = e + 1 := ⟨_, (Nat.succ_pred (by omega)).symm⟩
      rw [he] at hd ⊢
      rw [Nat.mul_add, Nat.mul_comm (2 ^ mb) e] at hd
      have := Nat.two_pow_pos mb
      simp only [Nat.add_sub_cancel]
      omega
  omega

theorem roundPat_half (mb : Nat) {p : Nat} (h : 1 ≤ p) : p ≤ 2 * magVal mb (roundPat mb p 1) := by
  have ⟨_, b⟩ := floorPat_div_spec mb p Nat.one_pos
  have hk : 1 ≤ roundPat mb p 1 := by
    apply le_roundPat_of_le Nat.one_pos
    rw [magVal_small (by rw [pow_succ]; have := Nat.two_pow_pos mb; omega)]; omega
  have hf : floorPat mb (p / 1) ≤ roundPat mb p 1 := by rcases roundPat_cases mb p Nat.one_pos with ⟨e, _⟩ | ⟨e, _⟩ <;> omega
  have h2 := magVal_double mb hk
  have h3 : magVal mb (floorPat mb (p / 1) + 1) ≤ magVal mb (roundPat mb p 1 + 1) := magVal_le_iff.2 (by omega)
  omega

/-- Different floats differ by a relative amount. -/
theorem scaled_gap {g o : F64} (h : g.scaled ≠ o.scaled) : o.absVal ≤ 2 ^ 53 * (g.scaled - o.scaled).natAbs := by
  have key : ∀ a b : Nat, a < b → magVal 52 b ≤ 2 ^ 53 * (magVal 52 b - magVal 52 a) := fun a b h => magVal_gap 52 h
  have hg := scaled_natAbs g
  have ho := scaled_natAbs o
  by_cases hlt : o.mag.val < g.mag.val
  · have h1 := key _ _ hlt
    have h2 : magVal 52 o.mag.val < magVal 52 g.mag.val := magVal_lt_iff.2 hlt
    have e1 : g.absVal = magVal 52 g.mag.val := rfl
    have e2 : o.absVal = magVal 52 o.mag.val := rfl
    omega
  · by_cases heq : o.mag.val = g.mag.val
    · have e : g.absVal = o.absVal := by unfold FP.absVal; rw [heq]
      omega
    · have hlt' : g.mag.val < o.mag.val := by omega
      have h1 := key _ _ hlt'
      have h2 : magVal 52 g.mag.val < magVal 52 o.mag.val := magVal_lt_iff.2 hlt'
      have e1 : g.absVal = magVal 52 g.mag.val := rfl
      have e2 : o.absVal = magVal 52 o.mag.val := rfl
      omega

theorem sub_eq_round {g o : F64} (hg : g.isFinite = true) (ho : o.isFinite = true) (h : g.scaled ≠ o.scaled) :
    g.sub o = ofRound (decide (g.scaled - o.scaled < 0)) (g.scaled - o.scaled).natAbs 1 := by
  have hn : (o.neg).scaled = -o.scaled := by
    show (if (!o.sign) = true then -(o.absVal : Int) else (o.absVal : Int)) = -o.scaled
    unfold FP.scaled; cases o.sign <;> simp
  have hni : (o.neg).isNaN = false := isFinite_not_nan ho
  have hnf : (o.neg).isInf = false := isFinite_not_inf ho
  unfold FP.sub FP.add
  rw [isFinite_not_nan hg, hni, isFinite_not_inf hg, hnf, hn, ← Int.sub_eq_add_neg]
  simp only [Bool.or_self, Bool.false_eq_true, if_false]
  rw [if_neg (by omega)]

/-- A pattern of the value `2^-54`. -/
theorem exists_pat_small : ∃ k, 1 ≤ k ∧ k ≤ infMag 52 11 ∧ magVal 52 k = 2 ^ 1020 := by
  obtain ⟨k, hk⟩ := exists_pat_mul_pow 52 (m := 1) (s := 1020) (by decide)
  rw [Nat.one_mul] at hk
  refine ⟨k, ?_, ?_, hk⟩
  · rw [Nat.one_le_iff_ne_zero]; rintro rfl
    rw [magVal_zero] at hk; exact absurd hk (Nat.two_pow_pos 1020).ne
  · apply (magVal_le_iff (mb := 52)).1
    rw [hk, magVal_infMag 52 (by decide), ← pow_add]
    exact Nat.pow_le_pow_right (by decide) (by decide)

theorem term_large {o g : F64} (ho : o.isFinite = true) (h : ¬ (g.isFinite = true ∧ g.scaled = o.scaled)) {k : Nat}
    (hk : k ≤ infMag 52 11) (hk2 : magVal 52 k = 2 ^ 1020) :
    ((g.sub o).div o).abs.isNaN = true ∨ k ≤ ((g.sub o).div o).abs.mag.val := by
  have habs : ∀ x : F64, x.abs.mag = x.mag := fun _ => rfl
  have hinf : ∀ d : F64, d.isInf = true → (d.div o).abs.isNaN = true ∨ k ≤ (d.div o).abs.mag.val := by
    intro d hd
    right
    rw [habs]
    unfold FP.div
    have hdn : d.isNaN = false := by
      simp only [FP.isInf, FP.isNaN, decide_eq_true_eq, decide_eq_false_iff_not] at *; omega
    rw [hdn, isFinite_not_nan ho, hd, isFinite_not_inf ho]
    simp only [Bool.or_self, Bool.false_eq_true, if_false, if_true]
    rw [inf_mag]; exact hk
  cases hgn : g.isNaN with
  | true =>
    left
    have : (g.sub o).isNaN = true := by
      unfold FP.sub FP.add; rw [hgn]; simp only [Bool.true_or, if_true]; exact nan_isNaN
    exact (by unfold FP.div; rw [this]; simp only [Bool.true_or, if_true]; exact nan_isNaN : ((g.sub o).div o).isNaN = true)
  | false =>
    cases hgi : g.isInf with
    | true =>
      apply hinf
      have e : g.sub o = g := by
        unfold FP.sub FP.add
        rw [hgn, show (o.neg).isNaN = false from isFinite_not_nan ho, hgi, show (o.neg).isInf = false from isFinite_not_inf ho]
        simp
      rw [e]; exact hgi
    | false =>
      have hg : g.isFinite = true := isFinite_iff.2 ⟨hgn, hgi⟩
      have hne : g.scaled ≠ o.scaled := fun e => h ⟨hg, e⟩
      have hsub := sub_eq_round hg ho hne
      cases hdi : (g.sub o).isInf with
      | true => exact hinf _ hdi
      | false =>
        right
        rw [habs]
        have hdn : (g.sub o).isNaN = false := by rw [hsub]; exact ofRound_isNaN _ _ _
        have hp : 1 ≤ (g.scaled - o.scaled).natAbs := by omega
        have hda : (g.scaled - o.scaled).natAbs ≤ 2 * (g.sub o).absVal := by
          have h1 := roundPat_half 52 hp
          have : (g.sub o).mag.val = roundPat 52 (g.scaled - o.scaled).natAbs 1 := by
            have h2 : (g.sub o).mag.val = min (roundPat 52 (g.scaled - o.scaled).natAbs 1) (infMag 52 11) := by rw [hsub]; rfl
            have h3 : (g.sub o).mag.val ≠ infMag 52 11 := by simpa [FP.isInf] using hdi
            omega
          unfold FP.absVal; rw [this]; exact h1
        have hgap := scaled_gap hne
        unfold FP.div
        rw [hdn, isFinite_not_nan ho, hdi, isFinite_not_inf ho]
        simp only [Bool.or_self, Bool.false_eq_true, if_false]
        split_ifs with h0 h1
        · omega
        · rw [inf_mag]; exact hk
        · show k ≤ min (roundPat 52 _ _) (infMag 52 11)
          have : k ≤ roundPat 52 ((g.sub o).absVal * 2 ^ qexp 52 11) o.absVal := by
            apply le_roundPat_of_le (by omega)
            rw [hk2]
            have hq : qexp 52 11 = 1020 + 54 := by decide
            rw [hq, pow_add]
            generalize (2 ^ 1020 : Nat) = T
            have : o.absVal ≤ (g.sub o).absVal * 2 ^ 54 := by omega
            calc T * o.absVal ≤ T * ((g.sub o).absVal * 2 ^ 54) := Nat.mul_le_mul_left _ this
              _ = _ := by ring
          omega

/-- Adding positive numbers does not make them smaller. -/
theorem pos_add_ge {a b : F64} (ha : PosOrNaN a) (hb : PosOrNaN b) :
    (a.add b).isNaN = true ∨ (a.mag.val ≤ (a.add b).mag.val ∧ b.mag.val ≤ (a.add b).mag.val) := by
  cases han : a.isNaN with
  | true => left; exact nan_add_left han
  | false =>
  cases hbn : b.isNaN with
  | true => left; exact nan_add_right hbn
  | false =>
  right
  have sa : a.sign = false := by rcases ha with h | h; rw [han] at h; exact absurd h (by decide); exact h
  have sb : b.sign = false := by rcases hb with h | h; rw [hbn] at h; exact absurd h (by decide); exact h
  have la := mag_le_inf han
  have lb := mag_le_inf hbn
  cases hai : a.isInf with
  | true =>
    have : a.add b = a := by unfold FP.add; simp [han, hbn, hai, sa, sb]
    have e : a.mag.val = infMag 52 11 := by simpa [FP.isInf] using hai
    rw [this]; omega
  | false =>
  cases hbi : b.isInf with
  | true =>
    have : a.add b = b := by unfold FP.add; simp [han, hbn, hai, hbi]
    have e : b.mag.val = infMag 52 11 := by simpa [FP.isInf] using hbi
    rw [this]; omega
  | false =>
    have ea := scaled_pos_sign sa
    have eb := scaled_pos_sign sb
    unfold FP.add
    rw [han, hbn, hai, hbi]
    simp only [Bool.or_self, Bool.false_eq_true, if_false]
    split_ifs with h0
    · have h1 : a.absVal = 0 := by omega
      have h2 : b.absVal = 0 := by omega
      have := magVal_eq_zero.1 h1
      have := magVal_eq_zero.1 h2
      omega
    · rw [ea, eb]
      have hs : ((a.absVal : Int) + b.absVal).natAbs = a.absVal + b.absVal := by omega
      rw [hs]
      have r : ∀ x : F64, x.absVal ≤ a.absVal + b.absVal → x.mag.val ≤ roundPat 52 (a.absVal + b.absVal) 1 := by
        intro x hx
        apply le_roundPat_of_le Nat.one_pos
        show x.absVal * 1 ≤ _
        omega
      have ra := r a (by omega)
      have rb := r b (by omega)
      constructor
      · show a.mag.val ≤ min (roundPat 52 _ 1) (infMag 52 11); omega
      · show b.mag.val ≤ min (roundPat 52 _ 1) (infMag 52 11); omega

theorem foldl_ge : ∀ (xs : List F64) (s : F64), PosOrNaN s → (∀ x ∈ xs, PosOrNaN x) →
    (xs.foldl FP.add s).isNaN = true ∨ (s.mag.val ≤ (xs.foldl FP.add s).mag.val ∧ ∀ x ∈ xs, x.mag.val ≤ (xs.foldl FP.add s).mag.val) := by
  intro xs
  induction xs with
  | nil => intro s _ _; right; exact ⟨le_refl _, by simp⟩
  | cons x xs ih =>
    intro s hs hx
    rw [List.foldl_cons]
    have hx0 := hx x (by simp)
    rcases pos_add_ge hs hx0 with h | ⟨h1, h2⟩
    · left; exact nan_foldl_start xs _ h
    · rcases ih (s.add x) (pos_add hs hx0) fun y hy => hx y (by simp [hy]) with h | ⟨h3, h4⟩
      · exact Or.inl h
      · right
        refine ⟨by omega, fun y hy => ?_⟩
        rcases List.mem_cons.1 hy with rfl | hy
        · omega
        · exact h4 y hy

theorem pow53_le : (2 : Nat) ^ 53 ≤ 2 ^ 1020 := Nat.pow_le_pow_right (by decide) (by decide)

/-- If the reported error (MAPE) is at most 0, the second series has exactly the values of the first. -/
theorem mape_zero_exact {a b : List F64} (hl : a.length = b.length) (hlen : a.length ≤ 2 ^ 53) (hf : AllFinite a) {r : F64}
    (h : calculateError a b = .ok r) (hr : r.le FP.zero = true) : SameValues b a := by
  obtain ⟨hrn, _, hr0⟩ := le_iff.1 hr
  have hz : (FP.zero : F64).scaled = 0 := by decide +kernel
  rw [hz] at hr0
  by_contra hcon
  have hex : ∃ i, ∃ ha : i < a.length, ∃ hb : i < b.length, ¬ (b[i].isFinite = true ∧ (b[i]).scaled = (a[i]).scaled) := by
    by_contra hno
    apply hcon
    refine ⟨hl.symm, fun i hb ha => ?_⟩
    have : b[i].isFinite = true ∧ (b[i]).scaled = (a[i]).scaled := by
      by_contra hc; exact hno ⟨i, ha, hb, hc⟩
    exact ⟨(val_eq_iff (by decide)).2 this.2, this.1, hf _ (List.getElem_mem _)⟩
  obtain ⟨i, ha, hb, hi⟩ := hex
  obtain ⟨k, hk1, hk2, hk3⟩ := exists_pat_small
  have hterm := term_large (hf _ (List.getElem_mem ha)) hi hk2 hk3
  have hk4 : 2 ^ 53 ≤ magVal 52 k := le_of_le_of_eq pow53_le hk3.symm
  clear hk3
  unfold calculateError ErrorMethod.error errorMape at h
  simp only [hl, ne_eq, not_true_eq_false, if_false] at h
  have h := Except.ok.inj h
  set xs := List.zipWith (fun o g : F64 => ((g.sub o).div o).abs) a b with hxs
  have hmem : (((b[i]).sub a[i]).div a[i]).abs ∈ xs := by
    rw [hxs, List.mem_iff_getElem]
    exact ⟨i, by simp; omega, by simp⟩
  have hpos : ∀ x ∈ xs, PosOrNaN x := by
    intro x hx
    obtain ⟨_, _, rfl⟩ := mem_zipWith hx; exact pos_abs _
  have hsum : (fsum xs).isNaN = true ∨ k ≤ (fsum xs).mag.val := by
    rcases foldl_ge xs FP.zero pos_zero hpos with h1 | ⟨_, h2⟩
    · exact Or.inl h1
    · rcases hterm with h3 | h3
      · left
        exact nan_foldl xs _ ⟨_, hmem, h3⟩
      · right
        exact le_trans h3 (h2 _ hmem)
  have hnn : (fsum xs).isNaN = false := by
    rw [Bool.eq_false_iff]; intro hc
    rw [← h, nan_div_left hc] at hrn; exact absurd hrn (by decide)
  have hge : k ≤ (fsum xs).mag.val := by
    rcases hsum with h1 | h1
    · rw [hnn] at h1; exact absurd h1 (by decide)
    · exact h1
  have hsign : (fsum xs).sign = false := by
    rcases pos_fsum xs hpos with h1 | h1
    · rw [hnn] at h1; exact absurd h1 (by decide)
    · exact h1
  have hne : 0 < b.length := by omega
  have hbl : b.length ≤ 2 ^ 53 := by omega
  obtain ⟨ls, lf⟩ := F64.lit_exact (n := (b.length : Int)) (by simpa using hbl)
  have la : (F64.lit (b.length : Int)).absVal = b.length * 2 ^ qexp 52 11 := by
    rw [← scaled_natAbs, ls]
    rw [Int.natAbs_mul]; simp only [Int.natAbs_natCast]
  have hrs : r.sign = false := by rw [← h]; exact div_sign_pos hsign (lit_sign)
  have hrm : 1 ≤ r.mag.val := by
    rw [← h]
    have hinfpos : 1 ≤ infMag 52 11 := by decide
    unfold FP.div
    rw [hnn, isFinite_not_nan lf, isFinite_not_inf lf]
    simp only [Bool.or_self, Bool.false_eq_true, if_false]
    split_ifs with h1 h2 h3
    · rw [inf_mag]; exact hinfpos
    · exfalso
      have := magVal_eq_zero.1 h3
      omega
    · rw [inf_mag]; exact hinfpos
    · show 1 ≤ min (roundPat 52 _ _) (infMag 52 11)
      have : 1 ≤ roundPat 52 ((fsum xs).absVal * 2 ^ qexp 52 11) (F64.lit (b.length : Int)).absVal := by
        apply le_roundPat_of_le (Nat.pos_of_ne_zero h2)
        rw [magVal_small (by decide), Nat.one_mul, la]
        apply Nat.mul_le_mul_right
        have h5 : magVal 52 k ≤ (fsum xs).absVal := magVal_le_iff.2 hge
        exact le_trans hbl (le_trans hk4 h5)
      exact Nat.le_min.2 ⟨this, hinfpos⟩
  have : 0 < r.absVal := by
    rw [Nat.pos_iff_ne_zero]; intro hc
    have := magVal_eq_zero.1 hc
    omega
  rw [scaled_pos_sign hrs] at hr0
  omega

end Atsc
