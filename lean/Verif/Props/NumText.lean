import Verif.Lemmas.Shortest
import Mathlib.Tactic.IntervalCases
import Mathlib.Algebra.Order.Archimedean.Basic
/- C106: how numbers are read from and written to CSV files. -/
namespace Atsc
open FP

/-! ### Reading -/

/-- **C106.** A field of a CSV file is accepted as a value exactly when it is a decimal notation or one of the words for infinity and NaN, with an optional sign; it is then read as the nearest
double (ties to even, overflow to infinity). -/
theorem C106_exact (t : List Char) (x : F64) : parseF64 t = some x ↔ ReadsAsFloat t x := parseF64_iff t x

/-- Notations and the bits of the doubles they are read as: both forms with and without sign, point and exponent, halfway cases, over- and underflow, the words; and texts that are refused. -/
example :
    parseF64 "0.1".toList = some (ofBits 0x3fb999999999999a) ∧ parseF64 "-.5e1".toList = some (ofBits 0xc014000000000000) ∧ parseF64 "+5.".toList = some (ofBits 0x4014000000000000) ∧
    parseF64 "9007199254740993".toList = some (ofBits 0x4340000000000000) ∧ parseF64 "9007199254740995".toList = some (ofBits 0x4340000000000002) ∧
    parseF64 "1e400".toList = some (ofBits 0x7ff0000000000000) ∧ parseF64 "-1E-400".toList = some (ofBits 0x8000000000000000) ∧
    parseF64 "3e-324".toList = some (ofBits 1) ∧ parseF64 "2e-324".toList = some (ofBits 0) ∧
    parseF64 "-iNf".toList = some (ofBits 0xfff0000000000000) ∧ parseF64 "NAN".toList = some FP.nan := by decide +kernel

example : parseF64 "".toList = none ∧ parseF64 ".".toList = none ∧ parseF64 "1e".toList = none ∧ parseF64 "+-1".toList = none ∧ parseF64 " 1".toList = none ∧ parseF64 "1,5".toList = none ∧
    parseF64 "0x10".toList = none ∧ parseF64 "1_000".toList = none ∧ parseF64 "infinit".toList = none ∧ parseF64 "e5".toList = none := by decide +kernel

/-- The specification on a text: `-12.5e-1` is -1.25. -/
example : ReadsAsFloat "-12.5e-1".toList (ofBits 0xbff4000000000000) := (C106_exact _ _).1 (by decide +kernel)

example : Signed "-12.5e-1".toList true "12.5e-1".toList ∧ Decimal "12.5e-1".toList (5 / 4) :=
  ⟨.inr ⟨rfl, by decide⟩, (decimal_iff _ _).2 ⟨125, -2, by decide +kernel, by norm_num⟩⟩

/-- C106: no text reads as two doubles. -/
theorem C106_unambiguous {t : List Char} {x y : F64} (hx : ReadsAsFloat t x) (hy : ReadsAsFloat t y) : x = y := by
  have h1 := (C106_exact t x).2 hx
  have h2 := (C106_exact t y).2 hy
  rw [h1] at h2
  exact Option.some.inj h2

/-- Every number has a nearest double. -/
theorem nearest_self {x : F64} (h : x.isFinite = true) : Nearest x.sign (absQ x) x := by
  have := ofRound_nearest x.sign x.absVal Nat.one_pos
  rw [← self_round (isFinite_not_nan h), Nat.cast_one, div_one] at this
  exact this

theorem signed_absQ (x : F64) : signedQ x.sign (absQ x) = x.val := (val_pat x).symm

/-- C106: a number that is a double is read as that double. -/
theorem C106_representable {t body : List Char} {neg : Bool} (hs : Signed t neg body) {v : ℚ} (hd : Decimal body v) {x : F64} (hf : x.isFinite = true) (hsx : x.sign = neg)
    (hv : x.val = signedQ neg v) : parseF64 t = some x := by
  refine (C106_exact t x).2 ⟨neg, body, hs, .inl ⟨v, hd, ?_⟩⟩
  subst hsx
  have : v = absQ x := by
    rw [← signed_absQ] at hv
    unfold signedQ at hv
    split at hv
    · exact (neg_injective hv).symm
    · exact hv.symm
  rw [this]
  exact nearest_self hf

/-! ### Writing -/

theorem ofDigits_pre (n : Nat) (ds : List Char) : Nat.ofDigitChars 10 (List.replicate n '0' ++ ds) 0 = Nat.ofDigitChars 10 ds 0 := by
  rw [Nat.ofDigitChars_append, Nat.ofDigitChars_replicate_zero, Nat.mul_zero]

theorem ofDigits_post (n : Nat) (ds : List Char) : Nat.ofDigitChars 10 (ds ++ List.replicate n '0') 0 = Nat.ofDigitChars 10 ds 0 * 10 ^ n := by
  rw [Nat.ofDigitChars_append, Nat.ofDigitChars_replicate_zero, Nat.mul_comm]

theorem digits_replicate (n : Nat) : Digits (List.replicate n '0') := fun c hc => by rw [List.eq_of_mem_replicate hc]; decide

theorem Digits.append {a b : List Char} (ha : Digits a) (hb : Digits b) : Digits (a ++ b) := fun c hc => (List.mem_append.1 hc).elim (ha c) (hb c)

theorem Digits.take {a : List Char} (ha : Digits a) (n : Nat) : Digits (a.take n) := fun c hc => ha c (List.mem_of_mem_take hc)

theorem Digits.drop {a : List Char} (ha : Digits a) (n : Nat) : Digits (a.drop n) := fun c hc => ha c (List.mem_of_mem_drop hc)

theorem toDigits_digits (n : Nat) : Digits (Nat.toDigits 10 n) := fun _ hc => Nat.isDigit_of_mem_toDigits (by decide) (by decide) hc

theorem reads_show (a : Int) : ReadsInt (showI32 a) a := by
  unfold showI32
  split
  · refine ⟨Nat.toDigits 10 (-a).toNat, Nat.toDigits_ne_nil, toDigits_digits _, .inr ⟨rfl, ?_⟩⟩
    rw [Nat.ofDigitChars_ten_toDigits]; omega
  · refine ⟨Nat.toDigits 10 a.toNat, Nat.toDigits_ne_nil, toDigits_digits _, .inl ⟨.inl rfl, ?_⟩⟩
    rw [Nat.ofDigitChars_ten_toDigits]; omega

/-- The text of a decimal is a notation of it. -/
theorem pretty_decimal {ds : List Char} (hd : Digits ds) (hne : ds ≠ []) (k : Int) : Decimal (ryuPretty ds k) ((Nat.ofDigitChars 10 ds 0 : ℚ) * (10 : ℚ) ^ k) := by
  have hlen : 0 < ds.length := List.length_pos_iff.2 hne
  have mk : ∀ {s whole point frac ex : List Char} {e : Int}, DecParts s whole point frac ex e →
      (Nat.ofDigitChars 10 (whole ++ frac) 0 : ℚ) * (10 : ℚ) ^ (e - frac.length) = (Nat.ofDigitChars 10 ds 0 : ℚ) * (10 : ℚ) ^ k →
      Decimal s ((Nat.ofDigitChars 10 ds 0 : ℚ) * (10 : ℚ) ^ k) := fun hp hv => by
    rw [← hv]
    exact (decimal_iff _ _).2 ⟨_, _, (readDecimal_iff _ _ _).2 ⟨_, _, _, _, _, hp, rfl, rfl⟩, rfl⟩
  unfold ryuPretty
  dsimp only
  split
  · rename_i h
    refine mk (whole := ds ++ List.replicate k.toNat '0') (point := ['.']) (frac := ['0']) (ex := []) (e := 0)
      ⟨by simp, hd.append (digits_replicate _), digits_replicate 1, .inl rfl, by simp, .inl ⟨rfl, rfl⟩⟩ ?_
    have e1 : Nat.ofDigitChars 10 (ds ++ List.replicate k.toNat '0' ++ ['0']) 0 = Nat.ofDigitChars 10 ds 0 * 10 ^ (k.toNat + 1) := by
      rw [← ofDigits_post, List.replicate_succ', ← List.append_assoc]
    rw [e1]
    push_cast
    have e2 : (10 : ℚ) ^ (k.toNat + 1) = (10 : ℚ) ^ (k + 1) := by
      rw [← zpow_natCast]; congr 1; push_cast; omega
    rw [e2, mul_assoc, ← zpow_add₀ (by norm_num)]
    congr 2
    simp
  · split
    · rename_i _ h
      refine mk (whole := ds.take (ds.length + k : Int).toNat) (point := ['.']) (frac := ds.drop (ds.length + k : Int).toNat) (ex := []) (e := 0)
        ⟨by simp, hd.take _, hd.drop _, .inl rfl, by rw [List.take_append_drop]; exact hne, .inl ⟨rfl, rfl⟩⟩ ?_
      rw [List.take_append_drop, List.length_drop]
      congr 2
      omega
    · split
      · rename_i _ _ h
        refine mk (whole := ['0']) (point := ['.']) (frac := List.replicate (-(ds.length + k)).toNat '0' ++ ds) (ex := []) (e := 0)
          ⟨by simp, digits_replicate 1, (digits_replicate _).append hd, .inl rfl, by simp, .inl ⟨rfl, rfl⟩⟩ ?_
        have e1 : Nat.ofDigitChars 10 (['0'] ++ (List.replicate (-(ds.length + k)).toNat '0' ++ ds)) 0 = Nat.ofDigitChars 10 ds 0 := by
          rw [← ofDigits_pre ((-(ds.length + k : Int)).toNat + 1) ds, List.replicate_succ]; rfl
        rw [e1, List.length_append, List.length_replicate]
        congr 2
        omega
      · split
        · rename_i h
          refine mk (whole := ds) (point := []) (frac := []) (ex := 'e' :: showI32 (ds.length + k - 1)) (e := ds.length + k - 1)
            ⟨by simp, hd, digits_nil, .inr ⟨rfl, rfl⟩, by simpa using hne, .inr ⟨'e', _, rfl, .inl rfl, reads_show _⟩⟩ ?_
          rw [List.append_nil, List.length_nil]
          congr 2
          omega
        · refine mk (whole := ds.take 1) (point := ['.']) (frac := ds.drop 1) (ex := 'e' :: showI32 (ds.length + k - 1)) (e := ds.length + k - 1)
            ⟨by simp, hd.take _, hd.drop _, .inl rfl, by rw [List.take_append_drop]; exact hne, .inr ⟨'e', _, rfl, .inl rfl, reads_show _⟩⟩ ?_
          rw [List.take_append_drop, List.length_drop]
          congr 2
          omega

theorem nearest_iff_round {x : F64} {m : Nat} {k : Int} : Nearest x.sign ((m : ℚ) * (10 : ℚ) ^ k) x ↔ decRound x.sign m k = x :=
  ⟨fun h => nearest_unique (decRound_nearest _ _ _) h, fun h => by have := decRound_nearest x.sign m k; rw [h] at this; exact this⟩

theorem ryu_shortest {x : F64} (hf : x.isFinite = true) (hx : x.absVal ≠ 0) : Shortest x (ryuDigits x).1 (ryuDigits x).2 := by
  obtain ⟨h1, h2, h3⟩ := ryuDigits_spec hf hx
  refine ⟨nearest_iff_round.2 h1, fun m' k' h => ⟨h2 m' k' (nearest_iff_round.1 h), ?_⟩⟩
  intro e
  rw [e] at h
  rw [← absQ_val]
  exact h3 m' (nearest_iff_round.1 h)

theorem absVal_zero {x : F64} : x.absVal = 0 ↔ x.val = 0 := by
  rw [← not_iff_not]
  exact absVal_ne_zero_iff

/-- The text of a double that is not a NaN: a sign and a body. -/
def ryuBody (x : F64) : List Char :=
  if x.isInf then "inf".toList else if x.absVal = 0 then "0.0".toList else ryuPretty (Nat.toDigits 10 (ryuDigits x).1) (ryuDigits x).2

theorem text_signed {x : F64} (hn : x.isNaN = false) : Signed (ryuText x) x.sign (ryuBody x) := by
  unfold ryuText
  rw [hn, if_neg (by decide)]
  cases hs : x.sign
  · exact .inl ⟨rfl, .inl rfl⟩
  · exact .inr ⟨rfl, rfl⟩

/-- **C106, writing.** What is written for a double, finite or infinite, is read back as the same double, sign of zero included. -/
theorem C106_shown_reads (x : F64) (hn : x.isNaN = false) : parseF64 (ryuText x) = some x := by
  refine (C106_exact _ x).2 ⟨x.sign, ryuBody x, text_signed hn, ?_⟩
  unfold ryuBody
  by_cases hi : x.isInf = true
  · rw [if_pos hi]
    exact .inr (.inl ⟨.inl (by unfold Word; decide), rfl, hi⟩)
  · rw [if_neg hi]
    have hf : x.isFinite = true := isFinite_iff.2 ⟨hn, by simpa using hi⟩
    left
    by_cases h0 : x.absVal = 0
    · rw [if_pos h0]
      have := (decimal_iff "0.0".toList 0).2 ⟨0, -1, by decide, by norm_num⟩
      refine ⟨0, this, ?_⟩
      have h := nearest_self hf
      have e : absQ x = 0 := by rw [absQ, h0]; simp
      rw [e] at h; exact h
    · rw [if_neg h0]
      refine ⟨_, pretty_decimal (toDigits_digits _) Nat.toDigits_ne_nil _, ?_⟩
      rw [Nat.ofDigitChars_ten_toDigits]
      exact (ryu_shortest hf h0).1

/-- C106: all NaNs are written alike and read as the standard one. -/
theorem C106_shown_nan (x : F64) (hn : x.isNaN = true) : ryuText x = "NaN".toList ∧ parseF64 (ryuText x) = some FP.nan := by
  have : ryuText x = "NaN".toList := by unfold ryuText; rw [if_pos hn]
  refine ⟨this, ?_⟩
  rw [this]
  decide +kernel

/-! ### Fewest digits -/

/-- Between two notations that read as `x` everything reads as `x`. -/
theorem reads_sandwich {x : F64} {m1 m2 m : Nat} {e1 e2 e : Int} (h1 : decRound x.sign m1 e1 = x) (h2 : decRound x.sign m2 e2 = x)
    (b1 : (m1 : ℚ) * (10 : ℚ) ^ e1 ≤ (m : ℚ) * (10 : ℚ) ^ e) (b2 : (m : ℚ) * (10 : ℚ) ^ e ≤ (m2 : ℚ) * (10 : ℚ) ^ e2) : decRound x.sign m e = x := by
  obtain ⟨p1, q1, hq1, hr1, hv1⟩ := decRound_frac m1 e1
  obtain ⟨p2, q2, hq2, hr2, hv2⟩ := decRound_frac m2 e2
  obtain ⟨p, q, hq, hr, hv⟩ := decRound_frac m e
  have hQ := qpow_posQ 52 11
  rw [hr1] at h1
  rw [hr2] at h2
  rw [hr, ext_iff']
  refine ⟨ofRound_sign _ _ _, ?_⟩
  generalize (2 : ℚ) ^ qexp 52 11 = Q at *
  have k1 := ofRound_mono (s := x.sign) hq1 hq (by rw [hv, hv1]; exact mul_le_mul_of_nonneg_right b1 hQ.le)
  have k2 := ofRound_mono (s := x.sign) hq hq2 (by rw [hv, hv2]; exact mul_le_mul_of_nonneg_right b2 hQ.le)
  rw [h1] at k1
  rw [h2] at k2
  omega

/-- Among the decimals that read as `x`, one that ends as far left as possible. -/
def EndsLeft (x : F64) (m : Nat) (k : Int) : Prop := Nearest x.sign ((m : ℚ) * (10 : ℚ) ^ k) x ∧ ∀ (m' : Nat) (k' : Int), Nearest x.sign ((m' : ℚ) * (10 : ℚ) ^ k') x → k' ≤ k

theorem Shortest.endsLeft {x : F64} {m : Nat} {k : Int} (h : Shortest x m k) : EndsLeft x m k := ⟨h.1, fun m' k' h' => (h.2 m' k' h').1⟩

theorem fewest_of {x : F64} (hx : x.val ≠ 0) {m : Nat} {k : Int} (h : EndsLeft x m k) {m' : Nat} {k' : Int}
    (h' : Nearest x.sign ((m' : ℚ) * (10 : ℚ) ^ k') x) {n : Nat} (hn : m' < 10 ^ n) : m < 10 ^ n := by
  by_contra hc
  have hc : 10 ^ n ≤ m := not_lt.1 hc
  have hk := h.2 m' k' h'
  have r1 := nearest_iff_round.1 h'
  have r2 := nearest_iff_round.1 h.1
  have t1 := ten_pos k
  have hkk : (10 : ℚ) ^ k' ≤ (10 : ℚ) ^ k := zpow_le_zpow_right₀ (by norm_num) hk
  have e : (10 : ℚ) ^ ((n : Int) + k) = (10 : ℚ) ^ n * (10 : ℚ) ^ k := by rw [zpow_add₀ (by norm_num), zpow_natCast]
  have hm' : (m' : ℚ) ≤ (10 : ℚ) ^ n := by exact_mod_cast hn.le
  have hm : (10 : ℚ) ^ n ≤ (m : ℚ) := by exact_mod_cast hc
  have h10n : (0 : ℚ) ≤ (10 : ℚ) ^ n := pow_nonneg (by norm_num) _
  have r3 : decRound x.sign 1 ((n : Int) + k) = x := by
    refine reads_sandwich r1 r2 ?_ ?_
    · rw [Nat.cast_one, one_mul, e]
      calc (m' : ℚ) * (10 : ℚ) ^ k' ≤ (10 : ℚ) ^ n * (10 : ℚ) ^ k' := mul_le_mul_of_nonneg_right hm' (ten_pos k').le
        _ ≤ _ := mul_le_mul_of_nonneg_left hkk h10n
    · rw [Nat.cast_one, one_mul, e]
      exact mul_le_mul_of_nonneg_right hm t1.le
  have := h.2 1 _ (nearest_iff_round.2 r3)
  have hn0 : n = 0 := by omega
  subst hn0
  have : m' = 0 := by simpa using hn
  exact reads_ne_zero (fun e => hx (absVal_zero.1 e)) r1 this

/-- **C106, fewest digits.** The shortest decimal has no more significant digits than any decimal that reads as `x`. -/
theorem C106_fewest {x : F64} (hx : x.val ≠ 0) {m : Nat} {k : Int} (h : Shortest x m k) {m' : Nat} {k' : Int}
    (h' : Nearest x.sign ((m' : ℚ) * (10 : ℚ) ^ k') x) {n : Nat} (hn : m' < 10 ^ n) : m < 10 ^ n := fewest_of hx h.endsLeft h' hn

theorem mant_lt (mb k : Nat) : magVal mb k + 2 ^ magShift mb k ≤ 2 ^ (mb + 1) * 2 ^ magShift mb k := by
  have h : k - magShift mb k * 2 ^ mb < 2 ^ (mb + 1) := by
    unfold magShift
    have h1 := Nat.mod_add_div k (2 ^ mb)
    have h2 := Nat.mod_lt k (Nat.two_pow_pos mb)
    rw [Nat.sub_mul, Nat.one_mul, Nat.pow_succ]
    rw [Nat.mul_comm] at h1
    omega
  unfold magVal
  calc (k - magShift mb k * 2 ^ mb) * 2 ^ magShift mb k + 2 ^ magShift mb k = (k - magShift mb k * 2 ^ mb + 1) * 2 ^ magShift mb k := by rw [Nat.add_mul, Nat.one_mul]
    _ ≤ _ := Nat.mul_le_mul_right _ h

/-- The gaps around a double are at least 2^-53 of it. -/
theorem gap_rel (mb : Nat) {k r : Nat} (h : r ≠ k) : (magVal mb k : ℚ) ≤ 2 ^ (mb + 1) * |(magVal mb r : ℚ) - magVal mb k| := by
  rcases Nat.lt_or_gt_of_ne h with hl | hl
  · obtain ⟨k, rfl⟩ : ∃ j, k = j + 1 := ⟨k - 1, by omega⟩
    have h1 : magVal mb r ≤ magVal mb k := magVal_le_iff.2 (by omega)
    have h2 := mant_lt mb k
    rw [magVal_succ]
    have h1' : (magVal mb r : ℚ) ≤ magVal mb k := by exact_mod_cast h1
    have h2' : (magVal mb k : ℚ) + 2 ^ magShift mb k ≤ 2 ^ (mb + 1) * 2 ^ magShift mb k := by exact_mod_cast h2
    push_cast
    have hp : (0 : ℚ) < 2 ^ magShift mb k := pow_pos (by norm_num) _
    have hp' : (0 : ℚ) < 2 ^ (mb + 1) := pow_pos (by norm_num) _
    rw [abs_of_neg (by linarith)]
    refine le_trans h2' (mul_le_mul_of_nonneg_left (by linarith) hp'.le)
  · have h1 : magVal mb (k + 1) ≤ magVal mb r := magVal_le_iff.2 (by omega)
    rw [magVal_succ] at h1
    have h2 := mant_lt mb k
    have h1' : (magVal mb k : ℚ) + 2 ^ magShift mb k ≤ magVal mb r := by exact_mod_cast h1
    have h2' : (magVal mb k : ℚ) + 2 ^ magShift mb k ≤ 2 ^ (mb + 1) * 2 ^ magShift mb k := by exact_mod_cast h2
    have hp : (0 : ℚ) < 2 ^ magShift mb k := pow_pos (by norm_num) _
    have hp' : (0 : ℚ) < 2 ^ (mb + 1) := pow_pos (by norm_num) _
    rw [abs_of_pos (by linarith)]
    refine le_trans (by linarith) (le_trans h2' (mul_le_mul_of_nonneg_left (by linarith) hp'.le))

/-- A decimal within 2^-54 of a double reads as it. -/
theorem reads_close {x : F64} (hf : x.isFinite = true) {m : Nat} {e : Int} (h : 2 ^ 54 * |(m : ℚ) * (10 : ℚ) ^ e - absQ x| < absQ x) : decRound x.sign m e = x := by
  have hlt : x.mag.val < infMag 52 11 := of_decide_eq_true hf
  obtain ⟨p, q, hq, hr, hv⟩ := decRound_frac m e
  have hQ := qpow_posQ 52 11
  have hs : (x.absVal : ℚ) = absQ x * 2 ^ qexp 52 11 := by have := absQ_scaled x; rwa [Nat.cast_one, div_one] at this
  rw [hr, ext_iff']
  refine ⟨ofRound_sign _ _ _, ?_⟩
  rw [ofRound_mag]
  have hk : roundPat 52 p q = x.mag.val := by
    by_contra hne
    have h1 := gap_rel 52 hne
    have h2 := roundPat_tie (mb := 52) hq (p := p) x.mag.val
    rw [hv] at h2
    have ha : (magVal 52 x.mag.val : ℚ) = absQ x * 2 ^ qexp 52 11 := hs
    rw [ha] at h1 h2
    generalize (2 : ℚ) ^ qexp 52 11 = Q at *
    generalize (magVal 52 (roundPat 52 p q) : ℚ) = M at *
    generalize (m : ℚ) * (10 : ℚ) ^ e = d at *
    generalize absQ x = a at *
    have h3 : |M - d * Q| ≤ |a * Q - d * Q| := by
      rcases h2 with h2 | h2
      · exact h2.le
      · exact h2.1.le
    have h4 : |a * Q - d * Q| = |d - a| * Q := by rw [← sub_mul, abs_mul, abs_of_pos hQ, abs_sub_comm]
    have h5 : |M - a * Q| ≤ |M - d * Q| + |a * Q - d * Q| := by
      have := abs_sub_le M (d * Q) (a * Q)
      rwa [abs_sub_comm (d * Q)] at this
    have h6 : 2 ^ 54 * |d - a| * Q < a * Q := mul_lt_mul_of_pos_right h hQ
    have h7 : (2 : ℚ) ^ (52 + 1) * |M - a * Q| ≤ 2 ^ (52 + 1) * (2 * (|d - a| * Q)) := mul_le_mul_of_nonneg_left (by linarith) (by norm_num)
    have h8 : (2 : ℚ) ^ (52 + 1) * (2 * (|d - a| * Q)) = 2 ^ 54 * |d - a| * Q := by ring
    linarith
  rw [hk, Nat.min_eq_left hlt.le]

theorem seventeen_of {x : F64} (hf : x.isFinite = true) (hx : x.val ≠ 0) {m : Nat} {k : Int} (h : EndsLeft x m k) : m < 10 ^ 17 := by
  have hpos := absQ_pos (x := x) (fun e => hx (absVal_zero.1 e))
  obtain ⟨j, hj1, hj2⟩ := exists_mem_Ico_zpow (y := (10 : ℚ)) hpos (by norm_num : (1 : ℚ) < 10)
  have t1 := ten_pos (j - 16)
  have e1 : (10 : ℚ) ^ j = 10 ^ 16 * (10 : ℚ) ^ (j - 16) := by
    rw [← zpow_natCast, ← zpow_add₀ (by norm_num)]; congr 1; push_cast; ring
  have e2 : (10 : ℚ) ^ (j + 1) = 10 ^ 17 * (10 : ℚ) ^ (j - 16) := by
    rw [← zpow_natCast, ← zpow_add₀ (by norm_num)]; congr 1; push_cast; ring
  have e3 : (10 : ℚ) ^ (j - 15) = 10 * (10 : ℚ) ^ (j - 16) := by
    rw [show j - 15 = 1 + (j - 16) by ring, zpow_add₀ (by norm_num), zpow_one]
  rw [e1] at hj1
  rw [e2] at hj2
  -- the nearest integer
  have f1 := Int.floor_le (absQ x / (10 : ℚ) ^ (j - 16) + 1 / 2)
  have f2 := Int.lt_floor_add_one (absQ x / (10 : ℚ) ^ (j - 16) + 1 / 2)
  generalize hn : ⌊absQ x / (10 : ℚ) ^ (j - 16) + 1 / 2⌋ = n at *
  have hd : absQ x = absQ x / (10 : ℚ) ^ (j - 16) * (10 : ℚ) ^ (j - 16) := (div_mul_cancel₀ _ t1.ne').symm
  generalize hr : absQ x / (10 : ℚ) ^ (j - 16) = r at *
  have r1 : 10 ^ 16 ≤ r := by rw [← hr, le_div_iff₀ t1]; exact hj1
  have r2 : r < 10 ^ 17 := by rw [← hr, div_lt_iff₀ t1]; exact hj2
  have n0 : 0 ≤ n := by
    have : (0 : ℚ) < (n : ℚ) + 1 := by linarith
    have : (0 : Int) < n + 1 := by exact_mod_cast this
    omega
  obtain ⟨m', rfl⟩ := Int.eq_ofNat_of_zero_le n0
  have hclose : decRound x.sign m' (j - 16) = x := by
    refine reads_close hf ?_
    rw [hd, ← sub_mul, abs_mul, abs_of_pos t1, ← mul_assoc]
    refine mul_lt_mul_of_pos_right ?_ t1
    have : |(m' : ℚ) - r| ≤ 1 / 2 := by
      have c1 : ((m' : Int) : ℚ) = (m' : ℚ) := by norm_cast
      rw [c1] at f1 f2
      exact abs_le.2 ⟨by linarith, by linarith⟩
    nlinarith
  rcases Nat.lt_or_ge m' (10 ^ 17) with hlt | hge
  · exact fewest_of hx h (nearest_iff_round.2 hclose) hlt
  · have hm' : m' = 10 ^ 17 := by
      have : (m' : ℚ) < 10 ^ 17 + 1 := by
        have c1 : ((m' : Int) : ℚ) = (m' : ℚ) := by norm_cast
        rw [c1] at f1
        linarith
      have : m' < 10 ^ 17 + 1 := by exact_mod_cast this
      omega
    subst hm'
    have : decRound x.sign (10 ^ 16) (j - 15) = x := by
      refine reads_sandwich hclose hclose (le_of_eq ?_) (le_of_eq ?_) <;> rw [e3] <;> push_cast <;> ring
    exact fewest_of hx h (nearest_iff_round.2 this) (by norm_num)

/-- C106: seventeen digits are always enough. -/
theorem C106_seventeen {x : F64} (hf : x.isFinite = true) (hx : x.val ≠ 0) {m : Nat} {k : Int} (h : Shortest x m k) : m < 10 ^ 17 := seventeen_of hf hx h.endsLeft

/-! ### Layout -/

theorem digitChar_ne_zero {n : Nat} (h : n < 10) (h0 : n ≠ 0) : n.digitChar ≠ '0' := by
  interval_cases n <;> first | exact absurd rfl h0 | decide

theorem toDigits_head {n : Nat} (h : n ≠ 0) : (Nat.toDigits 10 n).head? ≠ some '0' := by
  induction n using Nat.strong_induction_on with
  | _ n ih =>
    by_cases hn : n < 10
    · rw [Nat.toDigits_of_lt_base hn]
      intro hc
      exact digitChar_ne_zero hn h (Option.some.inj hc)
    · rw [Nat.toDigits_of_base_le (by decide) (by omega)]
      have := ih (n / 10) (by omega) (by omega)
      rwa [List.head?_append_of_ne_nil _ Nat.toDigits_ne_nil]

theorem toDigits_last {n : Nat} (h : n % 10 ≠ 0) : (Nat.toDigits 10 n).getLast? ≠ some '0' := by
  by_cases hn : n < 10
  · rw [Nat.toDigits_of_lt_base hn]
    intro hc
    exact digitChar_ne_zero hn (by omega) (Option.some.inj hc)
  · rw [Nat.toDigits_of_base_le (by decide) (by omega)]
    rw [List.getLast?_append]
    intro hc
    exact digitChar_ne_zero (Nat.mod_lt n (by decide)) h (by simpa using hc)

theorem toDigits_noLeading (n : Nat) : NoLeadingZero (Nat.toDigits 10 n) := by
  refine ⟨toDigits_digits n, Nat.toDigits_ne_nil, ?_⟩
  by_cases h : n = 0
  · subst h; exact .inl (Nat.toDigits_zero _)
  · exact .inr (toDigits_head h)

theorem show_canonical (a : Int) : ∃ ds, NoLeadingZero ds ∧ (showI32 a = ds ∨ showI32 a = '-' :: ds) := by
  unfold showI32
  split
  · exact ⟨_, toDigits_noLeading _, .inr rfl⟩
  · exact ⟨_, toDigits_noLeading _, .inl rfl⟩

theorem getLast_drop {ds : List Char} {n : Nat} (h : n < ds.length) : (ds.drop n).getLast? = ds.getLast? := by
  rw [List.getLast?_drop, if_neg (by omega)]

theorem head_take {ds : List Char} {n : Nat} (h : 0 < n) : (ds.take n).head? = ds.head? := by
  rw [List.head?_take, if_neg (by omega)]

theorem pretty_layout {m : Nat} (h0 : m % 10 ≠ 0) (k : Int) : Layout (ryuPretty (Nat.toDigits 10 m) k) ((m : ℚ) * (10 : ℚ) ^ k) := by
  have hm0 : m ≠ 0 := by rintro rfl; exact h0 rfl
  have hd := toDigits_digits m
  have hne : Nat.toDigits 10 m ≠ [] := Nat.toDigits_ne_nil
  have hhead := toDigits_head hm0
  have hlast := toDigits_last h0
  have hl0 : 0 < (Nat.toDigits 10 m).length := List.length_pos_iff.2 hne
  have hup : m < 10 ^ (Nat.toDigits 10 m).length := (Nat.length_toDigits_le_iff (by decide) hl0).1 (le_refl _)
  have hlow : 10 ^ ((Nat.toDigits 10 m).length - 1) ≤ m := by
    by_cases h1 : (Nat.toDigits 10 m).length = 1
    · rw [h1]; simp; omega
    · by_contra hc
      have := (Nat.length_toDigits_le_iff (b := 10) (n := m) (k := (Nat.toDigits 10 m).length - 1) (by decide) (by omega)).2 (by omega)
      omega
  generalize Nat.toDigits 10 m = ds at *
  have t := ten_pos k
  have v1 : (10 : ℚ) ^ ((ds.length : Int) + k - 1) ≤ (m : ℚ) * (10 : ℚ) ^ k := by
    have : (10 : ℚ) ^ ((ds.length : Int) + k - 1) = (10 : ℚ) ^ (ds.length - 1) * (10 : ℚ) ^ k := by
      rw [← zpow_natCast, ← zpow_add₀ (by norm_num)]; congr 1; omega
    rw [this]
    exact mul_le_mul_of_nonneg_right (by exact_mod_cast hlow) t.le
  have v2 : (m : ℚ) * (10 : ℚ) ^ k < (10 : ℚ) ^ ((ds.length : Int) + k) := by
    rw [zpow_add₀ (by norm_num), zpow_natCast]
    exact mul_lt_mul_of_pos_right (by exact_mod_cast hup) t
  generalize (m : ℚ) * (10 : ℚ) ^ k = v at *
  have lo : -4 ≤ (ds.length : Int) + k → 1 / 10 ^ 5 ≤ v := fun h => by
    refine le_trans ?_ v1
    have : (10 : ℚ) ^ (-5 : Int) ≤ (10 : ℚ) ^ ((ds.length : Int) + k - 1) := zpow_le_zpow_right₀ (by norm_num) (by omega)
    refine le_trans (le_of_eq ?_) this
    norm_num
  have hi : (ds.length : Int) + k ≤ 16 → v < 10 ^ 16 := fun h => by
    refine lt_of_lt_of_le v2 ?_
    have : (10 : ℚ) ^ ((ds.length : Int) + k) ≤ (10 : ℚ) ^ (16 : Int) := zpow_le_zpow_right₀ (by norm_num) h
    exact this.trans (le_of_eq (by norm_num))
  have lo' : (ds.length : Int) + k ≤ -5 → v < 1 / 10 ^ 5 := fun h => by
    refine lt_of_lt_of_le v2 ?_
    have : (10 : ℚ) ^ ((ds.length : Int) + k) ≤ (10 : ℚ) ^ (-5 : Int) := zpow_le_zpow_right₀ (by norm_num) h
    exact this.trans (le_of_eq (by norm_num))
  have hi' : 17 ≤ (ds.length : Int) + k → 10 ^ 16 ≤ v := fun h => by
    refine le_trans ?_ v1
    have : (10 : ℚ) ^ (16 : Int) ≤ (10 : ℚ) ^ ((ds.length : Int) + k - 1) := zpow_le_zpow_right₀ (by norm_num) (by omega)
    refine le_trans (le_of_eq ?_) this
    norm_num
  unfold ryuPretty
  dsimp only
  by_cases c1 : 0 ≤ k ∧ (ds.length : Int) + k ≤ 16
  · rw [if_pos c1]
    refine .inl ⟨lo (by omega), hi c1.2, ds ++ List.replicate k.toNat '0', ['0'], by simp, ⟨hd.append (digits_replicate _), by simp [hne], .inr ?_⟩, digits_replicate 1, by simp, .inl rfl⟩
    rwa [List.head?_append_of_ne_nil _ hne]
  rw [if_neg c1]
  by_cases c2 : 0 < (ds.length : Int) + k ∧ (ds.length : Int) + k ≤ 16
  · rw [if_pos c2]
    have hp : 0 < (ds.length + k : Int).toNat := by omega
    have hq : (ds.length + k : Int).toNat < ds.length := by omega
    refine .inl ⟨lo (by omega), hi c2.2, _, _, rfl, ⟨hd.take _, ?_, .inr ?_⟩, hd.drop _, ?_, .inr ?_⟩
    · intro hc
      have := congrArg List.length hc
      rw [List.length_take, List.length_nil] at this
      omega
    · rw [head_take hp]; exact hhead
    · intro hc
      have := congrArg List.length hc
      rw [List.length_drop, List.length_nil] at this
      omega
    · rw [getLast_drop hq]; exact hlast
  rw [if_neg c2]
  by_cases c3 : -5 < (ds.length : Int) + k ∧ (ds.length : Int) + k ≤ 0
  · rw [if_pos c3]
    refine .inl ⟨lo (by omega), hi (by omega), ['0'], _, rfl, ⟨digits_replicate 1, by simp, .inl rfl⟩, (digits_replicate _).append hd, by simp [hne], .inr ?_⟩
    rw [List.getLast?_append_of_ne_nil _ hne]; exact hlast
  rw [if_neg c3]
  have hv : v < 1 / 10 ^ 5 ∨ 10 ^ 16 ≤ v := by
    by_cases h : (ds.length : Int) + k ≤ -5
    · exact .inl (lo' h)
    · exact .inr (hi' (by omega))
  cases ds with
  | nil => exact absurd rfl hne
  | cons d r =>
    have hdd : d.isDigit = true := hd d (by simp)
    have hd0 : d ≠ '0' := fun e => hhead (by rw [e]; rfl)
    by_cases c4 : (d :: r).length = 1
    · rw [if_pos c4]
      have hr : r = [] := by simpa using c4
      subst hr
      exact .inr ⟨hv, d, [], _, .inl ⟨rfl, rfl⟩, hdd, hd0, digits_nil, by simp, show_canonical _⟩
    · rw [if_neg c4]
      have hr : r ≠ [] := by rintro rfl; exact c4 rfl
      refine .inr ⟨hv, d, r, _, .inr ⟨rfl, hr⟩, hdd, hd0, fun c hc => hd c (by simp [hc]), ?_, show_canonical _⟩
      rw [List.getLast?_cons_of_ne_nil hr] at hlast; exact hlast

theorem endsLeft_last {x : F64} {m : Nat} {k : Int} (h : EndsLeft x m k) : m % 10 ≠ 0 := by
  intro h0
  have hm : m = m / 10 * 10 := by omega
  have := h.2 (m / 10) (k + 1) ?_
  · omega
  · have e : ((m / 10 : Nat) : ℚ) * (10 : ℚ) ^ (k + 1) = (m : ℚ) * (10 : ℚ) ^ k := by
      rw [zpow_add₀ (by norm_num), zpow_one]
      conv_rhs => rw [hm]
      push_cast; ring
    rw [e]; exact h.1

/-- The shortest decimal does not end in zero. -/
theorem shortest_last {x : F64} {m : Nat} {k : Int} (h : Shortest x m k) : m % 10 ≠ 0 := endsLeft_last h.endsLeft

/-- **C106, what is written.** For a finite double other than zero: its sign (only minus) and the shortest decimal that reads as it, never more than 17 digits, in the layout specified. -/
theorem C106_shown {x : F64} (hf : x.isFinite = true) (hx : x.val ≠ 0) : ∃ body m k, ryuText x = (if x.sign = true then ['-'] else []) ++ body ∧
    Shortest x m k ∧ Decimal body ((m : ℚ) * (10 : ℚ) ^ k) ∧ Layout body ((m : ℚ) * (10 : ℚ) ^ k) ∧ m < 10 ^ 17 := by
  have h0 : x.absVal ≠ 0 := fun e => hx (absVal_zero.1 e)
  have hs := ryu_shortest hf h0
  have hp := pretty_decimal (toDigits_digits (ryuDigits x).1) Nat.toDigits_ne_nil (ryuDigits x).2
  rw [Nat.ofDigitChars_ten_toDigits] at hp
  refine ⟨_, _, _, ?_, hs, hp, pretty_layout (shortest_last hs) _, C106_seventeen hf hx hs⟩
  unfold ryuText
  rw [isFinite_not_nan hf, isFinite_not_inf hf, if_neg Bool.false_ne_true, if_neg (c := (false = true)) Bool.false_ne_true, if_neg h0]

/-- C106: zeros and infinities. -/
theorem C106_shown_special : ryuText FP.zero = "0.0".toList ∧ ryuText FP.negZero = "-0.0".toList ∧ ryuText (FP.inf false) = "inf".toList ∧
    ryuText (FP.inf true) = "-inf".toList := by decide +kernel

/-! ### Timestamps -/

theorem hexDigit_iff (c : Char) : hexDigit c = hexValue c := by
  unfold hexDigit hexValue
  by_cases h1 : '0' ≤ c ∧ c ≤ '9'
  · rw [if_pos h1]
    have hlo : 48 ≤ c.toNat := Char.le_def.1 h1.1
    have hhi : c.toNat ≤ 57 := Char.le_def.1 h1.2
    have : ∀ n, 48 ≤ n → n ≤ 57 → some (n - 48) = "0123456789abcdef".toList.idxOf? (Char.ofNat n).toLower := by decide +kernel
    have h := this c.toNat hlo hhi
    rwa [Char.ofNat_toNat] at h
  rw [if_neg h1]
  by_cases h2 : 'a' ≤ c ∧ c ≤ 'f'
  · rw [if_pos h2]
    have hlo : 97 ≤ c.toNat := Char.le_def.1 h2.1
    have hhi : c.toNat ≤ 102 := Char.le_def.1 h2.2
    have : ∀ n, 97 ≤ n → n ≤ 102 → some (n - 87) = "0123456789abcdef".toList.idxOf? (Char.ofNat n).toLower := by decide +kernel
    have h := this c.toNat hlo hhi
    rwa [Char.ofNat_toNat] at h
  rw [if_neg h2]
  by_cases h3 : 'A' ≤ c ∧ c ≤ 'F'
  · rw [if_pos h3]
    have hlo : 65 ≤ c.toNat := Char.le_def.1 h3.1
    have hhi : c.toNat ≤ 70 := Char.le_def.1 h3.2
    have : ∀ n, 65 ≤ n → n ≤ 70 → some (n - 55) = "0123456789abcdef".toList.idxOf? (Char.ofNat n).toLower := by decide +kernel
    have h := this c.toNat hlo hhi
    rwa [Char.ofNat_toNat] at h
  rw [if_neg h3]
  symm
  rw [List.idxOf?_eq_none_iff]
  intro hm
  have key : c.toLower ∈ "0123456789abcdef".toList → ('0' ≤ c ∧ c ≤ '9') ∨ ('a' ≤ c ∧ c ≤ 'f') ∨ ('A' ≤ c ∧ c ≤ 'F') := by
    by_cases hu : 65 ≤ c.toNat ∧ c.toNat ≤ 90
    · have : ∀ n, 65 ≤ n → n ≤ 90 → (Char.ofNat n).toLower ∈ "0123456789abcdef".toList → n ≤ 70 := by decide +kernel
      intro h
      refine .inr (.inr ⟨Char.le_def.2 hu.1, Char.le_def.2 (this c.toNat hu.1 hu.2 (by rwa [Char.ofNat_toNat]))⟩)
    · have e : c.toLower = c := by
        unfold Char.toLower
        rw [dif_neg]
        intro hc
        exact hu ⟨UInt32.le_iff_toNat_le.1 hc.1, UInt32.le_iff_toNat_le.1 hc.2⟩
      rw [e]
      intro h
      have hall : ∀ d ∈ "0123456789abcdef".toList, ('0' ≤ d ∧ d ≤ '9') ∨ ('a' ≤ d ∧ d ≤ 'f') ∨ ('A' ≤ d ∧ d ≤ 'F') := by decide +kernel
      exact hall c h
  rcases key hm with h | h | h
  · exact h1 h
  · exact h2 h
  · exact h3 h

theorem hexDigits_append (a b : List Char) (acc : Nat) : hexDigits acc (a ++ b) = (hexDigits acc a).bind fun n => hexDigits n b := by
  induction a generalizing acc with
  | nil => rfl
  | cons c a ih =>
    rw [List.cons_append, hexDigits, hexDigits]
    cases hexDigit c with
    | none => rfl
    | some d => exact ih _

theorem hexDigits_iff (ds : List Char) (n : Nat) : hexDigits 0 ds = some n ↔ HexReads ds n := by
  constructor
  · intro h
    induction ds using List.reverseRecOn generalizing n with
    | nil => rw [← Option.some.inj h]; exact .nil
    | append_singleton ds c ih =>
      rw [hexDigits_append] at h
      obtain ⟨k, hk, h⟩ := Option.bind_eq_some_iff.1 h
      rw [hexDigits] at h
      cases hc : hexDigit c with
      | none => rw [hc] at h; cases h
      | some d =>
        rw [hc] at h
        rw [← Option.some.inj h]
        exact .digit (ih k hk) (by rw [← hexDigit_iff, hc])
  · intro h
    induction h with
    | nil => rfl
    | digit _ hv ih =>
      rw [hexDigits_append, ih]
      show hexDigits _ _ = _
      rw [hexDigits, hexDigit_iff, hv]
      rfl

theorem hexReads_head {ds : List Char} {n : Nat} (h : HexReads ds n) (hne : ds ≠ []) : ds.head? ≠ some '-' ∧ ds.head? ≠ some '+' := by
  rw [← hexDigits_iff] at h
  cases ds with
  | nil => exact absurd rfl hne
  | cons c r =>
    have : ∀ d : Char, (d = '-' ∨ d = '+') → hexDigit d = none := by rintro d (rfl | rfl) <;> decide
    constructor
    · intro hc
      cases hc
      rw [hexDigits, this _ (.inl rfl)] at h; cases h
    · intro hc
      cases hc
      rw [hexDigits, this _ (.inr rfl)] at h; cases h

theorem readHex_iff (r : List Char) (n : Int) : readHex r = some n ↔
    ∃ neg ds k, Signed r neg ds ∧ ds ≠ [] ∧ HexReads ds k ∧ n = (if neg = true then -(k : Int) else k) := by
  have mapEq : ∀ (ds : List Char) (f : Nat → Int), (hexDigits 0 ds).map f = some n ↔ ∃ k, HexReads ds k ∧ n = f k := by
    intro ds f
    rw [Option.map_eq_some_iff]
    constructor
    · rintro ⟨k, h1, h2⟩; exact ⟨k, (hexDigits_iff _ _).1 h1, h2.symm⟩
    · rintro ⟨k, h1, h2⟩; exact ⟨k, (hexDigits_iff _ _).2 h1, h2.symm⟩
  unfold Signed
  constructor
  · intro h
    rw [readHex.eq_def] at h
    split at h
    · cases h
    · rename_i ds
      split at h
      · cases h
      · rename_i hne
        obtain ⟨k, h1, h2⟩ := (mapEq _ _).1 h
        exact ⟨true, ds, k, .inr ⟨rfl, rfl⟩, hne, h1, by rw [if_pos rfl]; exact h2⟩
    · rename_i ds
      split at h
      · cases h
      · rename_i hne
        obtain ⟨k, h1, h2⟩ := (mapEq _ _).1 h
        exact ⟨false, ds, k, .inl ⟨rfl, .inr rfl⟩, hne, h1, by rw [if_neg (by decide)]; exact h2⟩
    · rename_i hne _ _
      obtain ⟨k, h1, h2⟩ := (mapEq _ _).1 h
      exact ⟨false, r, k, .inl ⟨rfl, .inl rfl⟩, fun e => hne e, h1, by rw [if_neg (by decide)]; exact h2⟩
  · rintro ⟨neg, ds, k, ⟨rfl, rfl | rfl⟩ | ⟨rfl, rfl⟩, hne, h1, h2⟩
    · rw [if_neg (by decide)] at h2
      have hh := hexReads_head h1 hne
      rw [readHex.eq_def]
      split
      · exact absurd rfl hne
      · exact absurd rfl hh.1
      · exact absurd rfl hh.2
      · exact (mapEq _ _).2 ⟨k, h1, h2⟩
    · rw [if_neg (by decide)] at h2
      show (if ds = [] then none else _) = _
      rw [if_neg hne]
      exact (mapEq _ _).2 ⟨k, h1, h2⟩
    · rw [if_pos rfl] at h2
      show (if ds = [] then none else _) = _
      rw [if_neg hne]
      exact (mapEq _ _).2 ⟨k, h1, h2⟩

theorem fitI64_iff (o : Option Int) (n : Int) : fitI64 o = some n ↔ InI64 n ∧ o = some n := by
  cases o with
  | none => unfold fitI64; simp
  | some k =>
    unfold fitI64
    dsimp only
    split
    · rename_i h
      constructor
      · intro e; cases e; exact ⟨h, rfl⟩
      · rintro ⟨_, e⟩; exact e
    · rename_i h
      constructor
      · intro e; cases e
      · rintro ⟨h', e⟩; cases e; exact absurd h' h

/-- **C106, timestamps.** A field is accepted as a timestamp exactly when it is a decimal integer, or a hexadecimal one after `0x`, in the 64-bit range. -/
theorem C106_timestamp (t : List Char) (n : Int) : parseI64 t = some n ↔ ReadsAsTimestamp t n := by
  have hr : InI64 n ↔ -9223372036854775808 ≤ n ∧ n ≤ 9223372036854775807 := by unfold InI64; omega
  unfold ReadsAsTimestamp
  rw [← and_assoc, ← hr]
  by_cases hx : ∃ r, t = '0' :: 'x' :: r
  · obtain ⟨r, rfl⟩ := hx
    have : parseI64 ('0' :: 'x' :: r) = fitI64 (readHex r) := rfl
    rw [this, fitI64_iff, readHex_iff]
    refine and_congr_right fun _ => ?_
    constructor
    · rintro ⟨neg, ds, k, h⟩; exact .inr ⟨r, neg, ds, k, rfl, h⟩
    · rintro (⟨ds, h1, h2, ⟨h3 | h3, _⟩ | ⟨h3, _⟩⟩ | ⟨body, neg, ds, k, h, h'⟩)
      · have := h2 'x' (by rw [← h3]; simp)
        exact absurd this (by decide)
      · cases h3
      · cases h3
      · cases h; exact ⟨neg, ds, k, h'⟩
  · have : parseI64 t = fitI64 (readInt t) := by
      rw [parseI64.eq_def]
      split
      · rename_i r; exact absurd ⟨r, rfl⟩ hx
      · rfl
    rw [this, fitI64_iff, readInt_iff]
    refine and_congr_right fun _ => ?_
    constructor
    · exact .inl
    · rintro (h | ⟨body, neg, ds, k, h, _⟩)
      · exact h
      · exact absurd ⟨body, h⟩ hx

/-- C106: a timestamp is read back as written. -/
theorem C106_timestamp_back {n : Int} (h : InI64 n) : parseI64 (showI32 n) = some n := by
  have hr : InI64 n ↔ -9223372036854775808 ≤ n ∧ n ≤ 9223372036854775807 := by unfold InI64; omega
  exact (C106_timestamp _ _).2 ⟨(hr.1 h).1, (hr.1 h).2, .inl (reads_show n)⟩

/- Doubles (by their bits) and how they are written. -/
example : ryuText (ofBits 0x3fb999999999999a) = "0.1".toList := by decide +kernel

example : ryuText (ofBits 0x8000000000000000) = "-0.0".toList := by decide +kernel

example : ryuText (ofBits 0x4341c37937e08000) = "1e16".toList := by decide +kernel

example : ryuText (ofBits 0x40fe240c9fbe76c9) = "123456.789".toList := by decide +kernel

example : ryuText (ofBits 0x7fefffffffffffff) = "1.7976931348623157e308".toList := by decide +kernel

example : ryuText (ofBits 0xbeb0c6f7a0b5ed8d) = "-1e-6".toList := by decide +kernel

example : ryuText (ofBits 0xfff0000000000000) = "-inf".toList := by decide +kernel

/-- The shortest decimal that reads as the double next to 0.1 is 1 * 10^-1, although its exact value has 55 digits. -/
example : Shortest (ofBits 0x3fb999999999999a) 1 (-1) := by
  have e : ryuDigits (ofBits 0x3fb999999999999a) = (1, -1) := by decide +kernel
  have := ryu_shortest (x := ofBits 0x3fb999999999999a) (by decide +kernel) (by decide +kernel)
  rw [e] at this
  exact this

/-- Timestamps: decimal, hexadecimal with the sign behind the `0x`, the limits of 64 bits; and texts that are refused. -/
example : parseI64 "-5".toList = some (-5) ∧ parseI64 "+007".toList = some 7 ∧ parseI64 "0x-1F".toList = some (-31) ∧ parseI64 "9223372036854775807".toList = some 9223372036854775807 ∧
    parseI64 "9223372036854775808".toList = none ∧ parseI64 "1.0".toList = none ∧ parseI64 "0x".toList = none ∧ parseI64 "".toList = none ∧ parseI64 "-0x1".toList = none := by decide +kernel

end Atsc
