import Verif.Lemmas.Nearest
import Verif.Model.NumText
import Verif.Props.VsriLoad
/- `parseF64` against the specification of decimal notations. -/
namespace Atsc
open FP

theorem readInt_iff (cs : List Char) (n : Int) : readInt cs = some n ↔ ReadsInt cs n := by
  have key : ∀ (ds : List Char) (sign : Int),
      (if ds = [] ∨ ¬ ds.all Char.isDigit then none else some (sign * (Nat.ofDigitChars 10 ds 0 : Int))) = some n ↔
      ds ≠ [] ∧ (∀ c ∈ ds, c.isDigit = true) ∧ n = sign * (Nat.ofDigitChars 10 ds 0 : Int) := by
    intro ds sign
    by_cases h1 : ds = [] ∨ ¬ ds.all Char.isDigit
    · rw [if_pos h1]
      constructor
      · intro h; cases h
      · rintro ⟨h2, h3, _⟩
        rcases h1 with h1 | h1
        · exact absurd h1 h2
        · exact absurd (List.all_eq_true.2 h3) h1
    · rw [if_neg h1]
      rw [not_or, not_not, List.all_eq_true] at h1
      constructor
      · intro h; exact ⟨h1.1, h1.2, (Option.some.inj h).symm⟩
      · rintro ⟨_, _, h⟩; rw [h]
  unfold readInt ReadsInt
  dsimp only
  split
  · rename_i ds
    rw [key]
    constructor
    · rintro ⟨h1, h2, h3⟩; exact ⟨ds, h1, h2, .inr ⟨rfl, by omega⟩⟩
    · rintro ⟨ds', h1, h2, ⟨h3 | h3, _⟩ | ⟨h3, h4⟩⟩
      · subst h3; exact absurd (h2 '-' (by simp)) (by decide)
      · cases h3
      · cases h3; exact ⟨h1, h2, by omega⟩
  · rename_i ds
    rw [key]
    constructor
    · rintro ⟨h1, h2, h3⟩; exact ⟨ds, h1, h2, .inl ⟨.inr rfl, by omega⟩⟩
    · rintro ⟨ds', h1, h2, ⟨h3 | h3, h4⟩ | ⟨h3, _⟩⟩
      · subst h3; exact absurd (h2 '+' (by simp)) (by decide)
      · cases h3; exact ⟨h1, h2, by omega⟩
      · cases h3
  · rename_i hm hp
    rw [key]
    constructor
    · rintro ⟨h1, h2, h3⟩; exact ⟨cs, h1, h2, .inl ⟨.inl rfl, by omega⟩⟩
    · rintro ⟨ds', h1, h2, ⟨h3 | h3, h4⟩ | ⟨h3, _⟩⟩
      · subst h3; exact ⟨h1, h2, by omega⟩
      · exact absurd h3 (hp ds')
      · exact absurd h3 (hm ds')

theorem readExp_iff (t : List Char) (e : Int) : readExp t = some e ↔ Exponent t e := by
  unfold readExp Exponent
  cases t with
  | nil => simp [eq_comm]
  | cons c r =>
    dsimp only
    constructor
    · intro h
      split at h
      · rename_i hc; exact .inr ⟨c, r, rfl, hc, (readInt_iff r e).1 h⟩
      · cases h
    · rintro (⟨h, _⟩ | ⟨c', r', h, hc, hr⟩)
      · cases h
      · cases h; rw [if_pos hc]; exact (readInt_iff r e).2 hr

theorem exponent_head {t : List Char} {e : Int} (h : Exponent t e) : ∀ c, t.head? = some c → c.isDigit = false ∧ c ≠ '.' := by
  intro c hc
  rcases h with ⟨rfl, _⟩ | ⟨c', r, rfl, h, _⟩
  · cases hc
  · cases hc
    rcases h with rfl | rfl <;> decide

theorem take_digits {a t : List Char} (ha : Digits a) (ht : ∀ c, t.head? = some c → c.isDigit = false) :
    (a ++ t).takeWhile Char.isDigit = a ∧ (a ++ t).dropWhile Char.isDigit = t := by
  induction a with
  | nil =>
    cases t with
    | nil => exact ⟨rfl, rfl⟩
    | cons c r =>
      have := ht c rfl
      simp [List.takeWhile_cons, List.dropWhile_cons, this]
  | cons c a ih =>
    have h1 := ha c (by simp)
    have := ih fun d hd => ha d (by simp [hd])
    rw [List.cons_append, List.takeWhile_cons, List.dropWhile_cons, if_pos h1, if_pos h1, this.1, this.2]
    exact ⟨rfl, rfl⟩

theorem digits_nil : Digits [] := fun _ hc => by cases hc

theorem digits_takeWhile (s : List Char) : Digits (s.takeWhile Char.isDigit) := fun c hc => by
  have := List.all_takeWhile (p := Char.isDigit) (l := s)
  exact List.all_eq_true.1 this c hc

theorem readFrac_cases (r : List Char) : (∃ t, r = '.' :: t ∧ readFrac r = (t.takeWhile Char.isDigit, t.dropWhile Char.isDigit)) ∨ readFrac r = ([], r) := by
  unfold readFrac
  split
  · rename_i t; exact .inl ⟨t, rfl, rfl⟩
  · exact .inr rfl

/-- The parts of a decimal notation. -/
def DecParts (s whole point frac ex : List Char) (e : Int) : Prop :=
  s = whole ++ point ++ frac ++ ex ∧ Digits whole ∧ Digits frac ∧ (point = ['.'] ∨ (point = [] ∧ frac = [])) ∧ whole ++ frac ≠ [] ∧ Exponent ex e

theorem readDecimal_iff (s : List Char) (m : Nat) (e : Int) : readDecimal s = some (m, e) ↔
    ∃ whole point frac ex e', DecParts s whole point frac ex e' ∧ m = Nat.ofDigitChars 10 (whole ++ frac) 0 ∧ e = e' - frac.length := by
  unfold readDecimal
  dsimp only
  constructor
  · intro h
    split at h
    · cases h
    · rename_i hne
      split at h
      · cases h
      · rename_i e' he
        have h := Option.some.inj h
        have h1 := (Prod.mk.inj h).1
        have h2 := (Prod.mk.inj h).2
        have hs : s = s.takeWhile Char.isDigit ++ s.dropWhile Char.isDigit := (List.takeWhile_append_dropWhile).symm
        generalize s.dropWhile Char.isDigit = r at *
        rcases readFrac_cases r with ⟨t, rfl, hf⟩ | hf
        · rw [hf] at h1 h2 hne he
          refine ⟨_, ['.'], _, _, e', ⟨?_, digits_takeWhile s, digits_takeWhile t, .inl rfl, ?_, (readExp_iff _ _).1 he⟩, h1.symm, h2.symm⟩
          · rw [List.append_assoc, List.takeWhile_append_dropWhile, List.append_assoc]; exact hs
          · intro hc; exact hne (List.append_eq_nil_iff.1 hc)
        · rw [hf] at h1 h2 hne he
          refine ⟨_, [], [], _, e', ⟨?_, digits_takeWhile s, digits_nil, .inr ⟨rfl, rfl⟩, ?_, (readExp_iff _ _).1 he⟩, h1.symm, h2.symm⟩
          · simpa using hs
          · intro hc; exact hne (List.append_eq_nil_iff.1 hc)
  · rintro ⟨whole, point, frac, ex, e', ⟨rfl, hw, hf, hp, hne, hx⟩, rfl, rfl⟩
    have hxh := exponent_head hx
    rcases hp with rfl | ⟨rfl, rfl⟩
    · have e1 := take_digits (a := whole) (t := '.' :: (frac ++ ex)) hw (by intro c hc; cases hc; decide)
      have e2 := take_digits (a := frac) (t := ex) hf fun c hc => (hxh c hc).1
      have es : whole ++ ['.'] ++ frac ++ ex = whole ++ '.' :: (frac ++ ex) := by simp
      rw [es, e1.1, e1.2]
      have hfr : readFrac ('.' :: (frac ++ ex)) = ((frac ++ ex).takeWhile Char.isDigit, (frac ++ ex).dropWhile Char.isDigit) := rfl
      rw [hfr, e2.1, e2.2]
      dsimp only
      rw [ if_neg (fun hc => hne (by rw [hc.1, hc.2]; rfl)), (readExp_iff ex e').2 hx]
    · have e1 := take_digits (a := whole) (t := ex) hw fun c hc => (hxh c hc).1
      have es : whole ++ [] ++ [] ++ ex = whole ++ ex := by simp
      rw [es, e1.1, e1.2]
      have hfr : readFrac ex = ([], ex) := by
        unfold readFrac
        split
        · rename_i t; exact absurd rfl (hxh '.' rfl).2
        · rfl
      rw [hfr]
      dsimp only
      rw [if_neg (fun hc => hne (by rw [hc.1]; rfl)), (readExp_iff ex e').2 hx]

theorem decRound_nearest (neg : Bool) (m : Nat) (e : Int) : Nearest neg ((m : ℚ) * (10 : ℚ) ^ e) (decRound neg m e) := by
  have hQ := qpow_posQ 52 11
  unfold decRound
  split
  · rename_i h
    have := ofRound_nearest neg (m * 10 ^ e.toNat * 2 ^ qexp 52 11) Nat.one_pos
    have ev : ((m * 10 ^ e.toNat * 2 ^ qexp 52 11 : Nat) : ℚ) / (1 : Nat) / 2 ^ qexp 52 11 = (m : ℚ) * (10 : ℚ) ^ e := by
      conv_rhs => rw [← Int.toNat_of_nonneg h, zpow_natCast]
      generalize qexp 52 11 = k at *
      push_cast
      rw [div_one, mul_div_assoc, div_self hQ.ne', mul_one]
    rw [ev] at this; exact this
  · rename_i h
    have := ofRound_nearest neg (m * 2 ^ qexp 52 11) (q := 10 ^ (-e).toNat) (Nat.pow_pos (by decide))
    have ev : ((m * 2 ^ qexp 52 11 : Nat) : ℚ) / ((10 ^ (-e).toNat : Nat) : ℚ) / 2 ^ qexp 52 11 = (m : ℚ) * (10 : ℚ) ^ e := by
      have he : e = -((-e).toNat : Int) := by omega
      conv_rhs => rw [he, zpow_neg, zpow_natCast]
      generalize qexp 52 11 = k at *
      push_cast
      rw [div_right_comm, mul_div_assoc, div_self hQ.ne', mul_one, div_eq_mul_inv]
    rw [ev] at this; exact this

theorem parts_value {s whole point frac ex : List Char} {e : Int} (_h : DecParts s whole point frac ex e) :
    ((Nat.ofDigitChars 10 whole 0 : ℚ) + (Nat.ofDigitChars 10 frac 0 : ℚ) / 10 ^ frac.length) * (10 : ℚ) ^ e =
      (Nat.ofDigitChars 10 (whole ++ frac) 0 : ℚ) * (10 : ℚ) ^ (e - frac.length) := by
  have h10 : (10 : ℚ) ^ frac.length ≠ 0 := pow_ne_zero _ (by norm_num)
  have ha : Nat.ofDigitChars 10 (whole ++ frac) 0 = Nat.ofDigitChars 10 whole 0 * 10 ^ frac.length + Nat.ofDigitChars 10 frac 0 := by
    rw [Nat.ofDigitChars_append, Nat.ofDigitChars_eq_ofDigitChars_zero (init := Nat.ofDigitChars 10 whole 0)]
    ring
  rw [ha, zpow_sub₀ (by norm_num), zpow_natCast]
  push_cast
  field_simp

theorem decimal_iff (s : List Char) (v : ℚ) : Decimal s v ↔ ∃ m e, readDecimal s = some (m, e) ∧ v = (m : ℚ) * (10 : ℚ) ^ e := by
  constructor
  · rintro ⟨whole, point, frac, ex, e, h1, h2, h3, h4, h5, h6, rfl⟩
    have hp : DecParts s whole point frac ex e := ⟨h1, h2, h3, h4, h5, h6⟩
    exact ⟨_, _, (readDecimal_iff _ _ _).2 ⟨whole, point, frac, ex, e, hp, rfl, rfl⟩, parts_value hp⟩
  · rintro ⟨m, e, h, rfl⟩
    obtain ⟨whole, point, frac, ex, e', hp, rfl, rfl⟩ := (readDecimal_iff _ _ _).1 h
    exact ⟨whole, point, frac, ex, e', hp.1, hp.2.1, hp.2.2.1, hp.2.2.2.1, hp.2.2.2.2.1, hp.2.2.2.2.2, (parts_value hp).symm⟩

theorem toLower_digit {c : Char} (h : c.isDigit = true) : c.toLower = c := by
  unfold Char.isDigit at h
  unfold Char.toLower
  rw [dif_neg]
  intro hc
  rw [Bool.and_eq_true, decide_eq_true_eq, decide_eq_true_eq] at h
  have h1 := UInt32.le_iff_toNat_le.1 h.2
  have h2 := UInt32.le_iff_toNat_le.1 hc.1
  have h1' : c.val.toNat ≤ 57 := h1
  have h2' : 65 ≤ c.val.toNat := h2
  omega

/-- A word is not a decimal notation. -/
theorem word_not_decimal {w : String} {s : List Char} (h : Word w s) (hw : ∀ c, w.toList.head? = some c → c.isDigit = false ∧ c ≠ '.') (v : ℚ) : ¬ Decimal s v := by
  rintro ⟨whole, point, frac, ex, e, rfl, hd, hf, hp, hne, -, -⟩
  unfold Word at h
  have hh : (whole ++ point ++ frac ++ ex).head?.map Char.toLower = w.toList.head? := by rw [← h, List.head?_map]
  cases whole with
  | cons c r =>
    have hc := hd c (by simp)
    simp only [List.cons_append, List.head?_cons, Option.map_some] at hh
    have := (hw _ hh.symm).1
    rw [toLower_digit hc, hc] at this; cases this
  | nil =>
    rcases hp with rfl | ⟨rfl, rfl⟩
    · simp only [List.nil_append, List.cons_append, List.head?_cons, Option.map_some] at hh
      exact (hw _ hh.symm).2 (by decide)
    · exact hne rfl

theorem parseUnsigned_iff (neg : Bool) (s : List Char) (x : F64) : parseUnsigned neg s = some x ↔
    ((∃ v, Decimal s v ∧ Nearest neg v x) ∨ ((Word "inf" s ∨ Word "infinity" s) ∧ x.sign = neg ∧ x.isInf = true) ∨
      (Word "nan" s ∧ x.sign = neg ∧ x.mag = FP.nan.mag)) := by
  have nInf : Word "inf" s → ∀ v, ¬ Decimal s v := fun h => word_not_decimal h (by intro c hc; cases hc; decide)
  have nInfy : Word "infinity" s → ∀ v, ¬ Decimal s v := fun h => word_not_decimal h (by intro c hc; cases hc; decide)
  have nNan : Word "nan" s → ∀ v, ¬ Decimal s v := fun h => word_not_decimal h (by intro c hc; cases hc; decide)
  have infEq : ∀ y : F64, y.sign = neg ∧ y.isInf = true ↔ FP.inf neg = y := by
    intro y
    have hm : (FP.inf neg : F64).mag.val = infMag 52 11 := Nat.min_self _
    rw [ext_iff', hm]
    constructor
    · rintro ⟨h1, h2⟩; exact ⟨h1.symm, (of_decide_eq_true h2).symm⟩
    · rintro ⟨h1, h2⟩; exact ⟨h1.symm, decide_eq_true h2.symm⟩
  have nanEq : ∀ y : F64, y.sign = neg ∧ y.mag = FP.nan.mag ↔ (⟨neg, FP.nan.mag⟩ : F64) = y := by
    intro y
    cases y with
    | mk a b => simp only [FP.mk.injEq]; constructor <;> rintro ⟨rfl, rfl⟩ <;> exact ⟨rfl, rfl⟩
  unfold parseUnsigned
  cases hd : readDecimal s with
  | some me =>
    obtain ⟨m, e⟩ := me
    dsimp only
    have hdec : Decimal s ((m : ℚ) * (10 : ℚ) ^ e) := (decimal_iff _ _).2 ⟨m, e, hd, rfl⟩
    constructor
    · intro h
      rw [← Option.some.inj h]
      exact .inl ⟨_, hdec, decRound_nearest neg m e⟩
    · rintro (⟨v, hv, hn⟩ | ⟨h1 | h1, _⟩ | ⟨h1, _⟩)
      · obtain ⟨m', e', hd', rfl⟩ := (decimal_iff _ _).1 hv
        rw [hd] at hd'
        have := Option.some.inj hd'
        rw [Prod.mk.injEq] at this
        obtain ⟨rfl, rfl⟩ := this
        rw [nearest_unique hn (decRound_nearest neg m e)]
      · exact absurd hdec (nInf h1 _)
      · exact absurd hdec (nInfy h1 _)
      · exact absurd hdec (nNan h1 _)
  | none =>
    have hno : ∀ v, ¬ Decimal s v := fun v hv => by
      obtain ⟨m, e, h, -⟩ := (decimal_iff _ _).1 hv
      rw [hd] at h; cases h
    dsimp only
    change (if Word "nan" s then some (⟨neg, FP.nan.mag⟩ : F64) else if Word "inf" s ∨ Word "infinity" s then some (FP.inf neg) else none) = some x ↔ _
    by_cases h1 : Word "nan" s
    · rw [if_pos h1]
      have hi : ¬ (Word "inf" s ∨ Word "infinity" s) := by
        unfold Word at h1 ⊢
        rw [h1]; decide
      constructor
      · intro h; exact .inr (.inr ⟨h1, (nanEq x).2 (Option.some.inj h)⟩)
      · rintro (⟨v, hv, -⟩ | ⟨h, -⟩ | ⟨-, h⟩)
        · exact absurd hv (hno v)
        · exact absurd h hi
        · rw [(nanEq x).1 h]
    · rw [if_neg h1]
      by_cases h2 : Word "inf" s ∨ Word "infinity" s
      · rw [if_pos h2]
        constructor
        · intro h; exact .inr (.inl ⟨h2, (infEq x).2 (Option.some.inj h)⟩)
        · rintro (⟨v, hv, -⟩ | ⟨-, h⟩ | ⟨h, -⟩)
          · exact absurd hv (hno v)
          · rw [(infEq x).1 h]
          · exact absurd h h1
      · rw [if_neg h2]
        constructor
        · intro h; cases h
        · rintro (⟨v, hv, -⟩ | ⟨h, -⟩ | ⟨h, -⟩)
          · exact absurd hv (hno v)
          · exact absurd h h2
          · exact absurd h h1

/-- A number in a CSV file is accepted exactly when it reads as a double, and is then that double. -/
theorem parseF64_iff (t : List Char) (x : F64) : parseF64 t = some x ↔ ReadsAsFloat t x := by
  have hsign : ∀ {b : List Char} {neg : Bool} {c : Char}, c = '-' ∨ c = '+' → ¬ ((∃ v, Decimal (c :: b) v ∧ Nearest neg v x) ∨
      ((Word "inf" (c :: b) ∨ Word "infinity" (c :: b)) ∧ x.sign = neg ∧ x.isInf = true) ∨ (Word "nan" (c :: b) ∧ x.sign = neg ∧ x.mag = FP.nan.mag)) := by
    intro b neg c hc h
    have hl : c.toLower = c ∧ c.isDigit = false ∧ c ≠ '.' ∧ c ≠ 'i' ∧ c ≠ 'n' := by rcases hc with rfl | rfl <;> decide
    rcases h with ⟨v, ⟨whole, point, frac, ex, e, he, hd, -, hp, hne, -, -⟩, -⟩ | ⟨h | h, -⟩ | ⟨h, -⟩
    · cases whole with
      | cons c' r =>
        simp only [List.cons_append] at he
        have := hd c' (by simp)
        rw [← (List.cons.inj he).1, hl.2.1] at this; cases this
      | nil =>
        rcases hp with rfl | ⟨rfl, rfl⟩
        · exact hl.2.2.1 (List.cons.inj he).1
        · exact hne rfl
    · exact hl.2.2.2.1 (hl.1 ▸ (List.cons.inj h).1)
    · exact hl.2.2.2.1 (hl.1 ▸ (List.cons.inj h).1)
    · exact hl.2.2.2.2 (hl.1 ▸ (List.cons.inj h).1)
  unfold parseF64 ReadsAsFloat Signed
  cases t with
  | nil =>
    dsimp only
    constructor
    · intro h; cases h
    · rintro ⟨neg, body, ⟨rfl, h | h⟩ | ⟨rfl, h⟩, hb⟩
      · subst h
        have := (parseUnsigned_iff false [] x).2 hb
        have e : parseUnsigned false [] = none := by decide
        rw [e] at this; cases this
      · cases h
      · cases h
  | cons c r =>
    dsimp only
    by_cases h1 : c = '-'
    · subst h1
      rw [if_pos rfl, parseUnsigned_iff]
      constructor
      · intro h; exact ⟨true, r, .inr ⟨rfl, rfl⟩, h⟩
      · rintro ⟨neg, body, ⟨rfl, h | h⟩ | ⟨rfl, h⟩, hb⟩
        · subst h; exact absurd hb (hsign (.inl rfl))
        · cases h
        · cases h; exact hb
    · rw [if_neg h1]
      by_cases h2 : c = '+'
      · subst h2
        rw [if_pos rfl, parseUnsigned_iff]
        constructor
        · intro h; exact ⟨false, r, .inl ⟨rfl, .inr rfl⟩, h⟩
        · rintro ⟨neg, body, ⟨rfl, h | h⟩ | ⟨rfl, h⟩, hb⟩
          · subst h; exact absurd hb (hsign (.inr rfl))
          · cases h; exact hb
          · cases h
      · rw [if_neg h2, parseUnsigned_iff]
        constructor
        · intro h; exact ⟨false, c :: r, .inl ⟨rfl, .inl rfl⟩, h⟩
        · rintro ⟨neg, body, ⟨rfl, h | h⟩ | ⟨rfl, h⟩, hb⟩
          · subst h; exact hb
          · exact absurd (List.cons.inj h).1 h2
          · exact absurd (List.cons.inj h).1 h1

end Atsc
