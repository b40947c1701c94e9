import Verif.Spec.Verbose
import Verif.Lemmas.Verbose
import Verif.Props.NumText
import Verif.Props.Rerun
import Verif.Props.Files
/- C109: what `--verbose` prints. -/
namespace Atsc
open FP

/-! ### Numbers -/

theorem debug_shortest {x : F64} (hf : x.isFinite = true) (hx : x.absVal ≠ 0) : ShortestAway x (debugDigits x).1 (debugDigits x).2 := by
  obtain ⟨h1, h2, h3⟩ := debugDigits_spec hf hx
  refine ⟨nearest_iff_round.2 h1, fun m' k' h => ⟨h2 m' k' (nearest_iff_round.1 h), ?_⟩⟩
  intro e
  rw [e] at h
  rw [← absQ_val]
  exact h3 m' (nearest_iff_round.1 h)

theorem ShortestAway.endsLeft {x : F64} {m : Nat} {k : Int} (h : ShortestAway x m k) : EndsLeft x m k := ⟨h.1, fun m' k' h' => (h.2 m' k' h').1⟩

/-- From the notation of a decimal by its parts. -/
theorem decimal_mk {ds : List Char} {k : Int} {s whole point frac ex : List Char} {e : Int} (hp : DecParts s whole point frac ex e)
    (hv : (Nat.ofDigitChars 10 (whole ++ frac) 0 : ℚ) * (10 : ℚ) ^ (e - frac.length) = (Nat.ofDigitChars 10 ds 0 : ℚ) * (10 : ℚ) ^ k) :
    Decimal s ((Nat.ofDigitChars 10 ds 0 : ℚ) * (10 : ℚ) ^ k) := by
  rw [← hv]
  exact (decimal_iff _ _).2 ⟨_, _, (readDecimal_iff _ _ _).2 ⟨_, _, _, _, _, hp, rfl, rfl⟩, rfl⟩

theorem decStr_decimal {ds : List Char} (hd : Digits ds) (hne : ds ≠ []) (k : Int) : Decimal (decStr ds k) ((Nat.ofDigitChars 10 ds 0 : ℚ) * (10 : ℚ) ^ k) := by
  have hlen : 0 < ds.length := List.length_pos_iff.2 hne
  unfold decStr
  dsimp only
  split
  · rename_i h
    refine decimal_mk (whole := ['0']) (point := ['.']) (frac := List.replicate (-(ds.length + k)).toNat '0' ++ ds) (ex := []) (e := 0)
      ⟨by simp, digits_replicate 1, (digits_replicate _).append hd, .inl rfl, by simp, .inl ⟨rfl, rfl⟩⟩ ?_
    have e1 : Nat.ofDigitChars 10 (['0'] ++ (List.replicate (-(ds.length + k)).toNat '0' ++ ds)) 0 = Nat.ofDigitChars 10 ds 0 := by
      rw [← ofDigits_pre ((-(ds.length + k : Int)).toNat + 1) ds, List.replicate_succ]; rfl
    rw [e1, List.length_append, List.length_replicate]
    congr 2
    omega
  · split
    · rename_i _ h
      refine decimal_mk (whole := ds.take (ds.length + k : Int).toNat) (point := ['.']) (frac := ds.drop (ds.length + k : Int).toNat) (ex := []) (e := 0)
        ⟨by simp, hd.take _, hd.drop _, .inl rfl, by rw [List.take_append_drop]; exact hne, .inl ⟨rfl, rfl⟩⟩ ?_
      rw [List.take_append_drop, List.length_drop]
      congr 2
      omega
    · rename_i _ h
      refine decimal_mk (whole := ds ++ List.replicate k.toNat '0') (point := ['.']) (frac := ['0']) (ex := []) (e := 0)
        ⟨by simp, hd.append (digits_replicate _), digits_replicate 1, .inl rfl, by simp, .inl ⟨rfl, rfl⟩⟩ ?_
      have e1 : Nat.ofDigitChars 10 (ds ++ List.replicate k.toNat '0' ++ ['0']) 0 = Nat.ofDigitChars 10 ds 0 * 10 ^ (k.toNat + 1) := by
        rw [← ofDigits_post, List.replicate_succ', ← List.append_assoc]
      rw [e1]
      push_cast
      have e2 : (10 : ℚ) ^ (k.toNat + 1) = (10 : ℚ) ^ (k + 1) := by
        rw [← zpow_natCast]; congr 1; push_cast; omega
      rw [e2, mul_assoc, ← zpow_add₀ (by norm_num)]
      congr 2
      simp

theorem expStr_decimal {ds : List Char} (hd : Digits ds) (hne : ds ≠ []) (k : Int) : Decimal (expStr ds k) ((Nat.ofDigitChars 10 ds 0 : ℚ) * (10 : ℚ) ^ k) := by
  have hlen : 0 < ds.length := List.length_pos_iff.2 hne
  unfold expStr
  by_cases h : 1 < ds.length
  · rw [if_pos h]
    refine decimal_mk (whole := ds.take 1) (point := ['.']) (frac := ds.drop 1) (ex := 'e' :: showI32 (ds.length + k - 1)) (e := ds.length + k - 1)
      ⟨by simp, hd.take _, hd.drop _, .inl rfl, by rw [List.take_append_drop]; exact hne, .inr ⟨'e', _, rfl, .inl rfl, reads_show _⟩⟩ ?_
    rw [List.take_append_drop, List.length_drop]
    congr 2
    omega
  · rw [if_neg h]
    refine decimal_mk (whole := ds) (point := []) (frac := []) (ex := 'e' :: showI32 (ds.length + k - 1)) (e := ds.length + k - 1)
      ⟨by simp [List.take_of_length_le (show ds.length ≤ 1 by omega)], hd, digits_nil, .inr ⟨rfl, rfl⟩, by simpa using hne, .inr ⟨'e', _, rfl, .inl rfl, reads_show _⟩⟩ ?_
    rw [List.append_nil, List.length_nil]
    congr 2
    omega

/-- Reading is monotone. -/
theorem decRound_mono {s : Bool} {m m' : Nat} {e e' : Int} (h : (m : ℚ) * (10 : ℚ) ^ e ≤ (m' : ℚ) * (10 : ℚ) ^ e') : (decRound s m e).mag.val ≤ (decRound s m' e').mag.val := by
  obtain ⟨p, q, hq, hr, hv⟩ := decRound_frac m e
  obtain ⟨p', q', hq', hr', hv'⟩ := decRound_frac m' e'
  rw [hr, hr']
  refine ofRound_mono hq hq' ?_
  rw [hv, hv']
  exact mul_le_mul_of_nonneg_right h (qpow_posQ 52 11).le

theorem decRound_sign (s : Bool) (m : Nat) (e : Int) : (decRound s m e).sign = s := by
  obtain ⟨p, q, hq, hr, hv⟩ := decRound_frac m e
  rw [hr]; exact ofRound_sign _ _ _

theorem decRound_mag (s s' : Bool) (m : Nat) (e : Int) : (decRound s m e).mag.val = (decRound s' m e).mag.val := by
  obtain ⟨p, q, hq, hr, hv⟩ := decRound_frac m e
  rw [hr, hr]; rfl

/-- A double lies at or above the double nearest to a power of ten exactly if its shortest decimal lies at or above that power of ten. -/
theorem shortest_ge_iff {x : F64} (hf : x.isFinite = true) (hx : x.absVal ≠ 0) {m : Nat} {k : Int} (h : EndsLeft x m k) (j : Int) :
    (decRound false 1 j).mag.val ≤ x.mag.val ↔ (10 : ℚ) ^ j ≤ (m : ℚ) * (10 : ℚ) ^ k := by
  have hr := nearest_iff_round.1 h.1
  constructor
  · intro hle
    by_contra hc
    have hc := not_le.1 hc
    have h1 := decRound_mono (s := x.sign) (m := m) (e := k) (m' := 1) (e' := j) (by rw [Nat.cast_one, one_mul]; exact hc.le)
    rw [hr, decRound_mag x.sign false] at h1
    have h2 : decRound x.sign 1 j = x := by
      rw [ext_iff', decRound_sign, decRound_mag x.sign false]; exact ⟨rfl, by omega⟩
    have h3 := h.2 1 j (nearest_iff_round.2 h2)
    have h4 : (1 : ℚ) ≤ m := by exact_mod_cast Nat.one_le_iff_ne_zero.2 (reads_ne_zero hx hr)
    have h5 : (10 : ℚ) ^ j ≤ (10 : ℚ) ^ k := zpow_le_zpow_right₀ (by norm_num) h3
    have := ten_pos k
    nlinarith
  · intro hle
    have h1 := decRound_mono (s := x.sign) (m := 1) (e := j) (m' := m) (e' := k) (by rw [Nat.cast_one, one_mul]; exact hle)
    rwa [hr, decRound_mag x.sign false] at h1

theorem high_iff {x : F64} (hf : x.isFinite = true) : debugHigh.le x.abs = true ↔ debugHigh.mag.val ≤ x.mag.val := by
  have hn : x.abs.isNaN = false := isFinite_not_nan (x := x.abs) hf
  have h1 : debugHigh.isNaN = false := by decide +kernel
  rw [le_iff, scaled_pos_sign (x := x.abs) rfl, scaled_pos_sign (x := debugHigh) (by decide +kernel)]
  refine ⟨fun h => ?_, fun h => ⟨h1, hn, ?_⟩⟩
  · exact magVal_le_iff.1 (Int.ofNat_le.1 h.2.2)
  · exact Int.ofNat_le.2 (magVal_le_iff.2 h)

theorem low_iff {x : F64} (hf : x.isFinite = true) : x.abs.lt debugLow = true ↔ ¬ debugLow.mag.val ≤ x.mag.val := by
  have hn : x.abs.isNaN = false := isFinite_not_nan (x := x.abs) hf
  have h1 : debugLow.isNaN = false := by decide +kernel
  rw [lt_iff, scaled_pos_sign (x := x.abs) rfl, scaled_pos_sign (x := debugLow) (by decide +kernel)]
  rw [← magVal_le_iff (mb := 52), not_le]
  refine ⟨fun h => Int.ofNat_lt.1 h.2.2, fun h => ⟨hn, h1, Int.ofNat_lt.2 h⟩⟩

theorem decStr_layout {m : Nat} (h0 : m % 10 ≠ 0) (k : Int) {v : ℚ} (h1 : 1 / 10 ^ 4 ≤ v) (h2 : v < 10 ^ 16) : LayoutFrom (1 / 10 ^ 4) (decStr (Nat.toDigits 10 m) k) v := by
  have hm0 : m ≠ 0 := by rintro rfl; exact h0 rfl
  have hd := toDigits_digits m
  have hne : Nat.toDigits 10 m ≠ [] := Nat.toDigits_ne_nil
  have hhead := toDigits_head hm0
  have hlast := toDigits_last h0
  have hl0 : 0 < (Nat.toDigits 10 m).length := List.length_pos_iff.2 hne
  generalize Nat.toDigits 10 m = ds at *
  left
  refine ⟨h1, h2, ?_⟩
  unfold decStr
  dsimp only
  by_cases c1 : (ds.length : Int) + k ≤ 0
  · rw [if_pos c1]
    refine ⟨['0'], _, rfl, ⟨digits_replicate 1, by simp, .inl rfl⟩, (digits_replicate _).append hd, by simp [hne], .inr ?_⟩
    rw [List.getLast?_append_of_ne_nil _ hne]; exact hlast
  rw [if_neg c1]
  by_cases c2 : (ds.length : Int) + k < ds.length
  · rw [if_pos c2]
    have hp : 0 < (ds.length + k : Int).toNat := by omega
    have hq : (ds.length + k : Int).toNat < ds.length := by omega
    refine ⟨_, _, rfl, ⟨hd.take _, ?_, .inr ?_⟩, hd.drop _, ?_, .inr ?_⟩
    · intro hc
      have := congrArg List.length hc
      rw [List.length_take, List.length_nil] at this
      omega
    · rw [head_take hp]; exact hhead
    · intro hc
      have := congrArg List.length hc
      rw [List.length_drop, List.length_nil] at this
      omega
    · rw [getLast_drop hq]; exact hlast
  · rw [if_neg c2]
    refine ⟨ds ++ List.replicate k.toNat '0', ['0'], by simp, ⟨hd.append (digits_replicate _), by simp [hne], .inr ?_⟩, digits_replicate 1, by simp, .inl rfl⟩
    rwa [List.head?_append_of_ne_nil _ hne]

theorem expStr_layout {m : Nat} (h0 : m % 10 ≠ 0) (k : Int) {v : ℚ} (hv : v < 1 / 10 ^ 4 ∨ 10 ^ 16 ≤ v) : LayoutFrom (1 / 10 ^ 4) (expStr (Nat.toDigits 10 m) k) v := by
  have hm0 : m ≠ 0 := by rintro rfl; exact h0 rfl
  have hd := toDigits_digits m
  have hne : Nat.toDigits 10 m ≠ [] := Nat.toDigits_ne_nil
  have hhead := toDigits_head hm0
  have hlast := toDigits_last h0
  generalize Nat.toDigits 10 m = ds at *
  unfold expStr
  cases ds with
  | nil => exact absurd rfl hne
  | cons d r =>
    have hdd : d.isDigit = true := hd d (by simp)
    have hd0 : d ≠ '0' := fun e => hhead (by rw [e]; rfl)
    by_cases c4 : 1 < (d :: r).length
    · rw [if_pos c4]
      have hr : r ≠ [] := by rintro rfl; simp at c4
      refine .inr ⟨hv, d, r, _, .inr ⟨rfl, hr⟩, hdd, hd0, fun c hc => hd c (by simp [hc]), ?_, show_canonical _⟩
      rw [List.getLast?_cons_of_ne_nil hr] at hlast; exact hlast
    · rw [if_neg c4]
      have hr : r = [] := by simpa using c4
      subst hr
      exact .inr ⟨hv, d, [], _, .inl ⟨rfl, rfl⟩, hdd, hd0, digits_nil, by simp, show_canonical _⟩

/-- The text of a double that is not a NaN, without the sign. -/
def debugBody (x : F64) : List Char :=
  if x.isInf then "inf".toList
  else if x.absVal = 0 then "0.0".toList
  else if debugHigh.le x.abs ∨ x.abs.lt debugLow then expStr (Nat.toDigits 10 (debugDigits x).1) (debugDigits x).2
  else decStr (Nat.toDigits 10 (debugDigits x).1) (debugDigits x).2

theorem debugText_eq {x : F64} (hn : x.isNaN = false) : debugText x = (if x.sign = true then ['-'] else []) ++ debugBody x := by
  unfold debugText
  rw [hn, if_neg (by decide)]
  rfl

theorem debugBody_finite {x : F64} (hf : x.isFinite = true) (hx : x.absVal ≠ 0) :
    Decimal (debugBody x) (((debugDigits x).1 : ℚ) * (10 : ℚ) ^ (debugDigits x).2) ∧ LayoutFrom (1 / 10 ^ 4) (debugBody x) (((debugDigits x).1 : ℚ) * (10 : ℚ) ^ (debugDigits x).2) := by
  have hs := (debug_shortest hf hx).endsLeft
  have hl := endsLeft_last hs
  have g1 := shortest_ge_iff hf hx hs 16
  have g2 := shortest_ge_iff hf hx hs (-4)
  have b1 := high_iff hf
  have b2 := low_iff hf
  change debugHigh.mag.val ≤ _ ↔ _ at g1
  change debugLow.mag.val ≤ _ ↔ _ at g2
  rw [← b1] at g1
  rw [g2] at b2
  have e1 : (10 : ℚ) ^ (16 : Int) = 10 ^ 16 := by norm_num
  have e2 : (10 : ℚ) ^ (-4 : Int) = 1 / 10 ^ 4 := by norm_num
  rw [e1] at g1
  rw [e2, not_le] at b2
  have d1 := decStr_decimal (toDigits_digits (debugDigits x).1) Nat.toDigits_ne_nil (debugDigits x).2
  have d2 := expStr_decimal (toDigits_digits (debugDigits x).1) Nat.toDigits_ne_nil (debugDigits x).2
  rw [Nat.ofDigitChars_ten_toDigits] at d1 d2
  unfold debugBody
  rw [isFinite_not_inf hf, if_neg Bool.false_ne_true, if_neg hx]
  by_cases hc : debugHigh.le x.abs = true ∨ x.abs.lt debugLow = true
  · rw [if_pos hc]
    refine ⟨d2, expStr_layout hl _ ?_⟩
    rcases hc with h | h
    · exact .inr (g1.1 h)
    · exact .inl (b2.1 h)
  · rw [if_neg hc]
    refine ⟨d1, decStr_layout hl _ ?_ ?_⟩
    · by_contra h; exact hc (.inr (b2.2 (not_le.1 h)))
    · by_contra h; exact hc (.inl (g1.2 (not_lt.1 h)))

/-- **C109, a sample.** What is shown for a finite sample other than zero: its sign (only minus) and the shortest decimal that reads as it, never more than 17 digits; from 0.0001 to
below 10^16 with a point, otherwise with an exponent. -/
theorem C109_shown {x : F64} (hf : x.isFinite = true) (hx : x.val ≠ 0) : ∃ body m k, debugText x = (if x.sign = true then ['-'] else []) ++ body ∧
    ShortestAway x m k ∧ Decimal body ((m : ℚ) * (10 : ℚ) ^ k) ∧ LayoutFrom (1 / 10 ^ 4) body ((m : ℚ) * (10 : ℚ) ^ k) ∧ m < 10 ^ 17 := by
  have h0 : x.absVal ≠ 0 := fun e => hx (absVal_zero.1 e)
  have hs := debug_shortest hf h0
  obtain ⟨h1, h2⟩ := debugBody_finite hf h0
  exact ⟨_, _, _, debugText_eq (isFinite_not_nan hf), hs, h1, h2, seventeen_of hf hx hs.endsLeft⟩

/-- C109: zeros, infinities and NaN. -/
theorem C109_shown_special : debugText FP.zero = "0.0".toList ∧ debugText FP.negZero = "-0.0".toList ∧ debugText (FP.inf false) = "inf".toList ∧
    debugText (FP.inf true) = "-inf".toList ∧ ∀ x : F64, x.isNaN = true → debugText x = "NaN".toList :=
  ⟨by decide +kernel, by decide +kernel, by decide +kernel, by decide +kernel, fun x hx => by unfold debugText; rw [if_pos hx]⟩

/-- C109: what is shown reads as the sample, bit for bit; for a NaN it is `NaN`. -/
theorem C109_entry (x : F64) : EntryOf (debugText x) x := by
  cases hn : x.isNaN with
  | true => exact .inr ⟨hn, C109_shown_special.2.2.2.2 x hn⟩
  | false =>
    left
    refine ⟨hn, x.sign, debugBody x, ?_, ?_⟩
    · rw [debugText_eq hn]
      cases hs : x.sign
      · exact .inl ⟨rfl, .inl rfl⟩
      · exact .inr ⟨rfl, rfl⟩
    · by_cases hi : x.isInf = true
      · have : debugBody x = "inf".toList := by unfold debugBody; rw [if_pos hi]
        rw [this]
        exact .inr (.inl ⟨.inl (by unfold Word; decide), rfl, hi⟩)
      · have hf : x.isFinite = true := isFinite_iff.2 ⟨hn, by simpa using hi⟩
        left
        by_cases h0 : x.absVal = 0
        · have : debugBody x = "0.0".toList := by unfold debugBody; rw [if_neg hi, if_pos h0]
          rw [this]
          refine ⟨0, (decimal_iff "0.0".toList 0).2 ⟨0, -1, by decide, by norm_num⟩, ?_⟩
          have h := nearest_self hf
          have e : absQ x = 0 := by rw [absQ, h0]; simp
          rw [e] at h; exact h
        · exact ⟨_, (debugBody_finite hf h0).1, (debug_shortest hf h0).1⟩

/-! ### Lists -/

/-- A character of a number: neither a comma nor a bracket. -/
def Numeric (c : Char) : Prop := c ≠ ',' ∧ c ≠ ']' ∧ c ≠ '[' ∧ c ≠ ' ' ∧ c ≠ '\n'

theorem numeric_digit {c : Char} (h : c.isDigit = true) : Numeric c := by
  refine ⟨?_, ?_, ?_, ?_, ?_⟩ <;> (rintro rfl; revert h; decide)

theorem numeric_digits {ds : List Char} (h : Digits ds) : ∀ c ∈ ds, Numeric c := fun c hc => numeric_digit (h c hc)

theorem numeric_show (a : Int) : ∀ c ∈ showI32 a, Numeric c := by
  obtain ⟨ds, h, e | e⟩ := show_canonical a
  · rw [e]; exact numeric_digits h.1
  · rw [e]
    intro c hc
    rcases List.mem_cons.1 hc with rfl | hc
    · exact ⟨by decide, by decide, by decide, by decide, by decide⟩
    · exact numeric_digits h.1 c hc

theorem numeric_dec {ds : List Char} (h : Digits ds) (k : Int) : ∀ c ∈ decStr ds k, Numeric c := by
  have p : Numeric '.' := ⟨by decide, by decide, by decide, by decide, by decide⟩
  have z : Numeric '0' := numeric_digit (by decide)
  have hr : ∀ n, ∀ c ∈ List.replicate n '0', Numeric c := fun n => numeric_digits (digits_replicate n)
  intro c hc
  unfold decStr at hc
  dsimp only at hc
  split at hc
  · rcases List.mem_cons.1 hc with rfl | hc
    · exact z
    rcases List.mem_cons.1 hc with rfl | hc
    · exact p
    exact (List.mem_append.1 hc).elim (hr _ c) (numeric_digits h c)
  · split at hc
    · rcases List.mem_append.1 hc with hc | hc
      · exact numeric_digits (h.take _) c hc
      rcases List.mem_cons.1 hc with rfl | hc
      · exact p
      exact numeric_digits (h.drop _) c hc
    · rcases List.mem_append.1 hc with hc | hc
      · exact (List.mem_append.1 hc).elim (numeric_digits h c) (hr _ c)
      · rcases List.mem_cons.1 hc with rfl | hc
        · exact p
        · rw [List.mem_singleton.1 hc]; exact z

theorem numeric_exp {ds : List Char} (h : Digits ds) (k : Int) : ∀ c ∈ expStr ds k, Numeric c := by
  intro c hc
  unfold expStr at hc
  rcases List.mem_append.1 hc with hc | hc
  · exact numeric_digits (h.take _) c hc
  rcases List.mem_append.1 hc with hc | hc
  · split at hc
    · rcases List.mem_cons.1 hc with rfl | hc
      · exact ⟨by decide, by decide, by decide, by decide, by decide⟩
      · exact numeric_digits (h.drop _) c hc
    · cases hc
  · rcases List.mem_cons.1 hc with rfl | hc
    · exact ⟨by decide, by decide, by decide, by decide, by decide⟩
    · exact numeric_show _ c hc

theorem numeric_text (x : F64) : ∀ c ∈ debugText x, Numeric c := by
  have words : ∀ c ∈ "NaNinf0.0-".toList, Numeric c := by
    have : ∀ c ∈ "NaNinf0.0-".toList, c ≠ ',' ∧ c ≠ ']' ∧ c ≠ '[' ∧ c ≠ ' ' ∧ c ≠ '\n' := by decide
    exact this
  have hd := toDigits_digits (debugDigits x).1
  intro c hc
  unfold debugText at hc
  split at hc
  · exact words c (List.mem_of_mem_take (i := 3) hc)
  · rcases List.mem_append.1 hc with hc | hc
    · split at hc
      · rw [List.mem_singleton.1 hc]; exact words '-' (by decide)
      · cases hc
    · split at hc
      · exact words c (List.mem_of_mem_drop (i := 3) (List.mem_of_mem_take (i := 3) hc))
      · split at hc
        · exact words c (List.mem_of_mem_drop (i := 6) (List.mem_of_mem_take (i := 3) hc))
        · split at hc
          · exact numeric_exp hd _ c hc
          · exact numeric_dec hd _ c hc

theorem debugRest_eq (xs : List F64) (x : F64) : ((List.map debugText (x :: xs)).intersperse [',', ' ']).flatten = debugText x ++ debugRest xs := by
  induction xs generalizing x with
  | nil => simp [debugRest]
  | cons y ys ih =>
    have := ih y
    rw [List.map_cons] at this
    rw [List.map_cons, List.map_cons, List.intersperse_cons_cons, List.flatten_cons, List.flatten_cons, this]
    rfl

/-- **C109, a list.** The samples are shown in brackets, separated by a comma and a space, each as in `C109_entry`; no entry contains a comma, a space or a bracket. -/
theorem C109_list (d : List F64) : ∃ es, Bracketed (debugList d) es ∧ List.Forall₂ EntryOf es d ∧ ∀ e ∈ es, ∀ c ∈ e, c ≠ ',' ∧ c ≠ ']' ∧ c ≠ '[' ∧ c ≠ ' ' ∧ c ≠ '\n' := by
  refine ⟨d.map debugText, ?_, ?_, ?_⟩
  · cases d with
    | nil => rfl
    | cons x xs =>
      unfold Bracketed
      rw [debugRest_eq, List.append_assoc]; rfl
  · rw [List.forall₂_map_left_iff]
    exact List.forall₂_same.2 fun x _ => C109_entry x
  · intro e he
    obtain ⟨x, -, rfl⟩ := List.mem_map.1 he
    exact numeric_text x

theorem split_numeric {a b s t : List Char} (ha : ∀ c ∈ a, Numeric c) (hb : ∀ c ∈ b, Numeric c) (hs : s.head? = some ',' ∨ s.head? = some ']')
    (ht : t.head? = some ',' ∨ t.head? = some ']') (h : a ++ s = b ++ t) : a = b ∧ s = t := by
  induction a generalizing b with
  | nil =>
    cases b with
    | nil => exact ⟨rfl, h⟩
    | cons c b =>
      exfalso
      have hc := hb c (by simp)
      rw [List.nil_append] at h
      rw [h] at hs
      rcases hs with hs | hs
      · exact hc.1 (Option.some.inj hs)
      · exact hc.2.1 (Option.some.inj hs)
  | cons c a ih =>
    cases b with
    | nil =>
      exfalso
      have hc := ha c (by simp)
      rw [List.nil_append] at h
      rw [← h] at ht
      rcases ht with ht | ht
      · exact hc.1 (Option.some.inj ht)
      · exact hc.2.1 (Option.some.inj ht)
    | cons c' b =>
      rw [List.cons_append, List.cons_append, List.cons.injEq] at h
      obtain ⟨h1, h2⟩ := ih (fun c hc => ha c (by simp [hc])) (fun c hc => hb c (by simp [hc])) h.2
      exact ⟨by rw [h.1, h1], h2⟩

theorem debugText_inj {x y : F64} : debugText x = debugText y ↔ SameSample x y := by
  constructor
  · intro h
    have hx := C109_entry x
    have hy := C109_entry y
    rw [← h] at hy
    rcases hx with ⟨-, hx⟩ | ⟨hx, ex⟩
    · rcases hy with ⟨-, hy⟩ | ⟨hy, ey⟩
      · exact .inl (C106_unambiguous hx hy)
      · rw [ey] at hx
        have := (C106_exact _ _).2 hx
        have e : parseF64 "NaN".toList = some FP.nan := by decide +kernel
        rw [e] at this
        cases this
        exact .inr ⟨by decide +kernel, hy⟩
    · rcases hy with ⟨-, hy⟩ | ⟨hy, -⟩
      · rw [ex] at hy
        have := (C106_exact _ _).2 hy
        have e : parseF64 "NaN".toList = some FP.nan := by decide +kernel
        rw [e] at this
        cases this
        exact .inr ⟨hx, by decide +kernel⟩
      · exact .inr ⟨hx, hy⟩
  · rintro (rfl | ⟨hx, hy⟩)
    · rfl
    · rw [C109_shown_special.2.2.2.2 x hx, C109_shown_special.2.2.2.2 y hy]

theorem debugRest_head (xs : List F64) : (debugRest xs ++ [']']).head? = some ',' ∨ (debugRest xs ++ [']']).head? = some ']' := by
  cases xs with
  | nil => exact .inr rfl
  | cons => exact .inl rfl

theorem debugRest_inj {xs ys : List F64} (h : debugRest xs ++ [']'] = debugRest ys ++ [']']) : List.Forall₂ SameSample xs ys := by
  induction xs generalizing ys with
  | nil =>
    cases ys with
    | nil => exact .nil
    | cons y ys => have := congrArg List.head? h; simp [debugRest] at this
  | cons x xs ih =>
    cases ys with
    | nil => have := congrArg List.head? h; simp [debugRest] at this
    | cons y ys =>
      unfold debugRest at h
      have h' : debugText x ++ (debugRest xs ++ [']']) = debugText y ++ (debugRest ys ++ [']']) := by simpa using h
      obtain ⟨h1, h2⟩ := split_numeric (numeric_text x) (numeric_text y) (debugRest_head xs) (debugRest_head ys) h'
      exact .cons (debugText_inj.1 h1) (ih h2)

/-- **C109, nothing is lost.** Two lists of samples are shown alike exactly if they are the same samples, all NaNs being alike. -/
theorem C109_tells (d d' : List F64) : debugList d = debugList d' ↔ List.Forall₂ SameSample d d' := by
  constructor
  · intro h
    cases d with
    | nil =>
      cases d' with
      | nil => exact .nil
      | cons y ys =>
        exfalso
        have h1 : (debugText y ++ (debugRest ys ++ [']'])) = [']'] := by simpa [debugList] using h.symm
        obtain ⟨h2, -⟩ := split_numeric (a := debugText y) (b := []) (numeric_text y) (by simp) (debugRest_head ys) (.inr rfl) h1
        have := C109_entry y
        rw [h2] at this
        rcases this with ⟨-, h3⟩ | ⟨-, h3⟩
        · have := (C106_exact _ _).2 h3; cases this
        · revert h3; decide
    | cons x xs =>
      cases d' with
      | nil =>
        exfalso
        have h1 : (debugText x ++ (debugRest xs ++ [']'])) = [']'] := by simpa [debugList] using h
        obtain ⟨h2, -⟩ := split_numeric (a := debugText x) (b := []) (numeric_text x) (by simp) (debugRest_head xs) (.inr rfl) h1
        have := C109_entry x
        rw [h2] at this
        rcases this with ⟨-, h3⟩ | ⟨-, h3⟩
        · have := (C106_exact _ _).2 h3; cases this
        · revert h3; decide
      | cons y ys =>
        unfold debugList at h
        obtain ⟨h1, h2⟩ := split_numeric (numeric_text x) (numeric_text y) (debugRest_head xs) (debugRest_head ys) (List.cons.inj h).2
        exact .cons (debugText_inj.1 h1) (debugRest_inj h2)
  · intro h
    have hr : ∀ {a b : List F64}, List.Forall₂ SameSample a b → debugRest a = debugRest b := by
      intro a b h
      induction h with
      | nil => rfl
      | cons h1 _ ih => unfold debugRest; rw [debugText_inj.2 h1, ih]
    cases h with
    | nil => rfl
    | cons h1 h2 => unfold debugList; dsimp only; rw [debugText_inj.2 h1, hr h2]

/-! ### The program -/

/-- Specification: the samples the program takes from a file with content `c`, and under which heading `--verbose` shows them. -/
inductive Handles (env : Env) (a : RunArgs) (c : Bytes) : String → List F64 → Prop
  /-- uncompressing a BRRO file: the samples it stands for -/
  | output {d : List F64} : a.uncompress = true → 12 ≤ c.length → c.take 4 = [66, 82, 82, 79] → decompressData env.E c = .ok d → Handles env a c "Output=" d
  /-- compressing a CSV file -/
  | csv {d : List F64} : a.uncompress = false → a.csv = true → readCsv env a c = .ok (.ok d) → Handles env a c "Input=" d
  /-- compressing a WBRO file -/
  | wbro {d : List F64} : a.uncompress = false → a.csv = false → WavBrro.fromFile env.addr c = .ok (.samples d) → Handles env a c "Input=" d

/-- Specification: what `--verbose` shows for a file with content `c`: one line, or nothing if there are no samples to show. -/
def Prints (env : Env) (a : RunArgs) (c : Bytes) (t : List Char) : Prop :=
  (∃ label d, Handles env a c label d ∧ LineOf label d t) ∨ ((∀ label d, ¬ Handles env a c label d) ∧ t = [])

theorem Handles.unique {env : Env} {a : RunArgs} {c : Bytes} {l l' : String} {d d' : List F64} (h : Handles env a c l d) (h' : Handles env a c l' d') : l = l' ∧ d = d' := by
  cases h with
  | output h1 h2 h3 h4 =>
    cases h' with
    | output _ _ _ h4' => rw [h4] at h4'; exact ⟨rfl, Except.ok.inj h4'⟩
    | csv h1' => rw [h1] at h1'; cases h1'
    | wbro h1' => rw [h1] at h1'; cases h1'
  | csv h1 h2 h3 =>
    cases h' with
    | output h1' => rw [h1] at h1'; cases h1'
    | csv _ _ h3' => rw [h3] at h3'; exact ⟨rfl, Except.ok.inj (Except.ok.inj h3')⟩
    | wbro _ h2' => rw [h2] at h2'; cases h2'
  | wbro h1 h2 h3 =>
    cases h' with
    | output h1' => rw [h1] at h1'; cases h1'
    | csv _ h2' => rw [h2] at h2'; cases h2'
    | wbro _ _ h3' => rw [h3] at h3'; exact ⟨rfl, WbroRead.samples.inj (Except.ok.inj h3')⟩

theorem lineOf_say (label : String) (d : List F64) : LineOf label d (label.toList ++ debugList d ++ ['\n']) := by
  obtain ⟨es, h1, h2, -⟩ := C109_list d
  exact ⟨_, es, rfl, h1, h2⟩

theorem broRead_bytes {c bs : Bytes} (h : broRead c = .bytes bs) : bs = c ∧ 12 ≤ c.length ∧ c.take 4 = [66, 82, 82, 79] := by
  unfold broRead at h
  split at h
  · cases h
  · split at h
    · rename_i h1 h2
      cases h
      exact ⟨rfl, by omega, h2⟩
    · cases h

theorem handles_bro {env : Env} {a : RunArgs} {c : Bytes} (hu : a.uncompress = true) {l : String} {d : List F64} (h : Handles env a c l d) :
    broRead c = .bytes c ∧ l = "Output=" ∧ decompressData env.E c = .ok d := by
  cases h with
  | output h1 h2 h3 h4 => exact ⟨by unfold broRead; rw [if_neg (by omega), if_pos (show c.take 4 = brro from h3)], rfl, h4⟩
  | csv h1 => rw [hu] at h1; cases h1
  | wbro h1 => rw [hu] at h1; cases h1

/-- Printing is added to what the program does anyway. -/
theorem talkSingle_eq (env : Env) (a : RunArgs) (verbose : Bool) (stop : Option Nat) (fs : Fs) (path : FPath) :
    (∃ c label d, fs path = some c ∧ Handles env a c label d ∧ talkSingle env a verbose stop fs path = say verbose stop label d fs (runSingle env a fs path)) ∨
    ((∀ c label d, fs path = some c → ¬ Handles env a c label d) ∧ talkSingle env a verbose stop fs path = ([], runSingle env a fs path)) := by
  unfold talkSingle runSingle processSingle
  cases hc : fs path with
  | none =>
    right
    refine ⟨by simp, ?_⟩
    cases a.uncompress <;> cases a.csv <;> rfl
  | some c =>
    dsimp only
    by_cases hu : a.uncompress = true
    · rw [if_pos hu, if_pos hu]
      cases hb : broRead c with
      | eof => exact .inr ⟨fun c' l d e h => (by cases e; rw [(handles_bro hu h).1] at hb; cases hb), rfl⟩
      | notBro => exact .inr ⟨fun c' l d e h => (by cases e; rw [(handles_bro hu h).1] at hb; cases hb), rfl⟩
      | bytes bs =>
        obtain ⟨rfl, h1, h2⟩ := broRead_bytes hb
        dsimp only
        cases hd : decompressData env.E bs with
        | error e => exact .inr ⟨fun c' l d e h => (by cases e; rw [(handles_bro hu h).2.2] at hd; cases hd), rfl⟩
        | ok d =>
          refine .inl ⟨bs, "Output=", d, rfl, .output hu h1 h2 hd, ?_⟩
          dsimp only [Except.bind, bind]
          cases WavBrro.toFileWithData d <;> rfl
    · rw [if_neg hu, if_neg hu]
      have hu' : a.uncompress = false := by simpa using hu
      by_cases hcsv : a.csv = true
      · rw [if_pos hcsv, if_pos hcsv]
        have key : ∀ l d, Handles env a c l d → readCsv env a c = .ok (.ok d) := by
          intro l d h
          cases h with
          | output h1 => exact absurd h1 hu
          | csv _ _ h => exact h
          | wbro _ h => rw [hcsv] at h; cases h
        cases hr : readCsv env a c with
        | error e => exact .inr ⟨fun c' l d e h => (by cases e; rw [key l d h] at hr; cases hr), rfl⟩
        | ok r =>
          cases r with
          | error e => exact .inr ⟨fun c' l d e h => (by cases e; rw [key l d h] at hr; cases hr), rfl⟩
          | ok d =>
            refine .inl ⟨c, "Input=", d, rfl, .csv hu' hcsv hr, ?_⟩
            dsimp only [Except.bind, bind, compressAndWrite]
            cases compressData env.E env.p d a.comp <;> rfl
      · rw [if_neg hcsv, if_neg hcsv]
        have hcsv' : a.csv = false := by simpa using hcsv
        have key : ∀ l d, Handles env a c l d → WavBrro.fromFile env.addr c = .ok (.samples d) := by
          intro l d h
          cases h with
          | output h1 => exact absurd h1 hu
          | csv _ h => exact absurd h hcsv
          | wbro _ _ h => exact h
        cases hr : WavBrro.fromFile env.addr c with
        | error e => exact .inr ⟨fun c' l d e h => (by cases e; rw [key l d h] at hr; cases hr), rfl⟩
        | ok r =>
          cases r with
          | ioError => exact .inr ⟨fun c' l d e h => (by cases e; rw [key l d h] at hr; cases hr), rfl⟩
          | formatError => exact .inr ⟨fun c' l d e h => (by cases e; rw [key l d h] at hr; cases hr), rfl⟩
          | samples d =>
            refine .inl ⟨c, "Input=", d, rfl, .wbro hu' hcsv' hr, ?_⟩
            dsimp only [Except.bind, bind, compressAndWrite]
            cases compressData env.E env.p d a.comp <;> rfl

theorem say_quiet (stop : Option Nat) (label : String) (d : List F64) (fs : Fs) (next : Fs × Ended) : say false stop label d fs next = ([], next) := rfl

theorem say_fine (verbose : Bool) (label : String) (d : List F64) (fs : Fs) (next : Fs × Ended) :
    say verbose none label d fs next = (if verbose then label.toList ++ debugList d ++ ['\n'] else [], next) := by cases verbose <;> rfl

theorem talkSingle_quiet (env : Env) (a : RunArgs) (stop : Option Nat) (fs : Fs) (path : FPath) : talkSingle env a false stop fs path = ([], runSingle env a fs path) := by
  rcases talkSingle_eq env a false stop fs path with ⟨c, l, d, -, -, h⟩ | ⟨-, h⟩ <;> rw [h]
  rfl

theorem talkSingle_fine (env : Env) (a : RunArgs) (verbose : Bool) (fs : Fs) (path : FPath) : (talkSingle env a verbose none fs path).2 = runSingle env a fs path := by
  rcases talkSingle_eq env a verbose none fs path with ⟨c, l, d, -, -, h⟩ | ⟨-, h⟩ <;> rw [h]
  rw [say_fine]

/-- What a directory run does to the files, given that printing does not interfere. -/
theorem talkDir_run (env : Env) (a : RunArgs) (verbose : Bool) (S : Nat → Option Nat) (h : ∀ k fs p, (talkSingle env a verbose (S k) fs p).2 = runSingle env a fs p) :
    ∀ (entries : List (FPath × Bool)) (k : Nat) (fs : Fs), (talkDir env a verbose S k fs entries).2 = runDir env a fs entries
  | [], k, fs => rfl
  | (p, false) :: rest, k, fs => by
    rw [talkDir, runDir, if_neg (by simp), if_neg (by simp)]
    exact talkDir_run env a verbose S h rest k fs
  | (p, true) :: rest, k, fs => by
    rw [talkDir, runDir, if_pos rfl, if_pos rfl]
    have h1 := h k fs p
    rcases ht : talkSingle env a verbose (S k) fs p with ⟨t, fs1, e⟩
    rw [ht] at h1
    rw [← h1]
    cases e with
    | ok => exact talkDir_run env a verbose S h rest _ fs1
    | panicked => rfl
    | err =>
      dsimp only
      have h2 := h (k + 1) fs1 p
      rcases hu : talkSingle env a verbose (S (k + 1)) fs1 p with ⟨u, fs2, e2⟩
      rw [hu] at h2
      rw [← h2]
      cases e2 with
      | ok => exact talkDir_run env a verbose S h rest _ fs2
      | panicked => rfl
      | err => rfl

theorem talkDir_quiet (env : Env) (a : RunArgs) (S : Nat → Option Nat) :
    ∀ (entries : List (FPath × Bool)) (k : Nat) (fs : Fs), (talkDir env a false S k fs entries).1 = []
  | [], k, fs => rfl
  | (p, false) :: rest, k, fs => by
    rw [talkDir, if_neg (by simp)]
    exact talkDir_quiet env a S rest k fs
  | (p, true) :: rest, k, fs => by
    rw [talkDir, if_pos rfl, talkSingle_quiet]
    rcases runSingle env a fs p with ⟨fs1, e⟩
    cases e with
    | ok => exact talkDir_quiet env a S rest _ fs1
    | panicked => rfl
    | err =>
      dsimp only
      rw [talkSingle_quiet]
      rcases runSingle env a fs1 p with ⟨fs2, e2⟩
      cases e2 with
      | ok => exact talkDir_quiet env a S rest _ fs2
      | panicked => rfl
      | err => rfl

/-- **C109, without the flag.** Nothing is printed, whatever becomes of standard output, and everything else is as described by the other properties. -/
theorem C109_quiet (env : Env) (a : RunArgs) (S : Nat → Option Nat) (fs : Fs) (i : Input) : talkMain env a false S fs i = ([], runMain env a fs i) := by
  unfold talkMain runMain
  cases i with
  | missing => rfl
  | other => rfl
  | file path => unfold talkArgs runArgs; dsimp only; rw [talkSingle_quiet]
  | dir entries =>
    unfold talkArgs runArgs; dsimp only
    rw [talkDir_quiet, talkDir_run env a false S (fun k fs p => by rw [talkSingle_quiet])]

/-- **C109, the flag changes nothing else.** As long as standard output can be written, the files left behind and the exit status are those of the run without the flag. -/
theorem C109_unchanged (env : Env) (a : RunArgs) (verbose : Bool) (fs : Fs) (i : Input) : (talkMain env a verbose (fun _ => none) fs i).2 = runMain env a fs i := by
  unfold talkMain runMain
  cases i with
  | missing => rfl
  | other => rfl
  | file path => unfold talkArgs runArgs; dsimp only; rw [talkSingle_fine]
  | dir entries =>
    unfold talkArgs runArgs; dsimp only
    rw [talkDir_run env a verbose _ (fun k fs p => talkSingle_fine env a verbose fs p)]

theorem talkSingle_prints (env : Env) (a : RunArgs) (fs : Fs) (path : FPath) {c : Bytes} (hc : fs path = some c) : Prints env a c (talkSingle env a true none fs path).1 := by
  rcases talkSingle_eq env a true none fs path with ⟨c', l, d, hc', hd, h⟩ | ⟨hn, h⟩
  · rw [hc] at hc'; cases hc'
    rw [h, say_fine]
    exact .inl ⟨l, d, hd, lineOf_say l d⟩
  · rw [h]
    exact .inr ⟨fun l d => hn c l d hc, rfl⟩

/-- **C109, one file.** With the flag, one line with all the samples taken from the file - when it is uncompressed those it stands for, when it is compressed those that
are compressed -, and nothing for a file the samples of which cannot be determined. -/
theorem C109_file (env : Env) (a : RunArgs) (fs : Fs) (path : FPath) (c : Bytes) (hc : fs path = some c) :
    Prints env a c (talkMain env a true (fun _ => none) fs (.file path)).1 := talkSingle_prints env a fs path hc

/-- **C109, uncompressing.** After a successful `-u --verbose` on a BRRO file the `.wbro` file reads as exactly the samples of the line printed. -/
theorem C109_output (env : Env) (ha : 8 ∣ env.addr) (a : RunArgs) (hu : a.uncompress = true) (fs fs' : Fs) (path : FPath) (c : Bytes) (hc : fs path = some c)
    (hb : c.take 4 = [66, 82, 82, 79]) (t : List Char) (h : talkMain env a true (fun _ => none) fs (.file path) = (t, fs', 0)) :
    ∃ d out, LineOf "Output=" d t ∧ fs' (outputPath a path) = some out ∧ WavBrro.fromFile env.addr out = .ok (.samples d) := by
  have h1 : (talkMain env a true (fun _ => none) fs (.file path)).1 = t := by rw [h]
  have h2 : runMain env a fs (.file path) = (fs', 0) := by rw [← C109_unchanged env a true, h]
  have hp := C109_file env a fs path c hc
  rw [h1] at hp
  obtain ⟨c', hc', ⟨b, ho, rfl⟩ | ⟨hk, -⟩⟩ := (C88_exact env a fs fs' path).1 h2
  · rw [hc] at hc'; cases hc'
    cases ho with
    | csv h => rw [hu] at h; cases h
    | wbro h => rw [hu] at h; cases h
    | uncompress g1 g2 g3 g4 g5 =>
      rename_i d
      have hh : Handles env a c "Output=" d := .output g1 g2 g3 g4
      rcases hp with ⟨l, d', hd, hl⟩ | ⟨hn, -⟩
      · obtain ⟨rfl, rfl⟩ := hd.unique hh
        refine ⟨d', b, hl, Fs.write_same _ _ _, ?_⟩
        have hlen : d'.length ≤ 2 ^ 28 := by
          by_contra hcon
          obtain ⟨e, he⟩ := C39_limit d' (by omega)
          rw [he] at g5; cases g5
        obtain ⟨f, hf1, hf2⟩ := C39_round_trip d' hlen env.addr ha
        rw [hf1] at g5; cases g5
        exact hf2
      · exact absurd hh (hn _ _)
  · rw [hc] at hc'; cases hc'
    exact absurd hb hk.2.2

/-- **C109, standard output breaks off.** If the line cannot be printed completely, the program ends with status 101 after a part of it, and no file has changed: the output
file is not written. -/
theorem C109_stopped (env : Env) (a : RunArgs) (S : Nat → Option Nat) (n : Nat) (hS : S 0 = some n) (fs : Fs) (path : FPath) (c : Bytes) (hc : fs path = some c)
    (label : String) (d : List F64) (hd : Handles env a c label d) :
    ∃ line, LineOf label d line ∧
      (n < line.length → talkMain env a true S fs (.file path) = (line.take n, fs, 101)) ∧
      (line.length ≤ n → talkMain env a true S fs (.file path) = (line, runMain env a fs (.file path))) := by
  refine ⟨_, lineOf_say label d, ?_⟩
  have key : talkSingle env a true (S 0) fs path = say true (S 0) label d fs (runSingle env a fs path) := by
    rcases talkSingle_eq env a true (S 0) fs path with ⟨c', l, d', hc', hd', h⟩ | ⟨hn, -⟩
    · rw [hc] at hc'; cases hc'
      obtain ⟨rfl, rfl⟩ := hd.unique hd'
      exact h
    · exact absurd hd (hn c _ _ hc)
  rw [hS] at key
  constructor
  · intro hl
    unfold talkMain talkArgs
    dsimp only
    rw [hS, key]
    unfold say
    dsimp only
    rw [if_pos rfl, if_pos hl]
    rfl
  · intro hl
    unfold talkMain talkArgs runMain runArgs
    dsimp only
    rw [hS, key]
    unfold say
    dsimp only
    rw [if_pos rfl, if_neg (by omega)]

/-- Specification: a run through `ps`, each file being dealt with in the state the ones before it have left, and what is printed for each. -/
inductive Passes (env : Env) (a : RunArgs) : Fs → List FPath → List (List Char) → Fs → Prop
  | done {fs : Fs} : Passes env a fs [] [] fs
  | next {fs fs1 fs2 : Fs} {p : FPath} {ps : List FPath} {c : Bytes} {t : List Char} {ts : List (List Char)} : fs p = some c → Prints env a c t →
      runMain env a fs (.file p) = (fs1, 0) → Passes env a fs1 ps ts fs2 → Passes env a fs (p :: ps) (t :: ts) fs2

theorem talkDir_passes (env : Env) (a : RunArgs) : ∀ (entries : List (FPath × Bool)) (k : Nat) (fs fs' : Fs) (t : List Char),
    talkDir env a true (fun _ => none) k fs entries = (t, fs', .ok) → ∃ ts, t = ts.flatten ∧ Passes env a fs (regularFiles entries) ts fs'
  | [], k, fs, fs', t, h => by
    rw [talkDir] at h
    cases h
    exact ⟨[], rfl, .done⟩
  | (p, false) :: rest, k, fs, fs', t, h => by
    rw [talkDir, if_neg (by simp)] at h
    exact talkDir_passes env a rest k fs fs' t h
  | (p, true) :: rest, k, fs, fs', t, h => by
    rw [talkDir, if_pos rfl] at h
    have h1 := talkSingle_fine env a true fs p
    have h0 := fun c (hc : fs p = some c) => talkSingle_prints env a fs p hc
    rcases ht : talkSingle env a true none fs p with ⟨t1, fs1, e⟩
    rw [ht] at h h1 h0
    dsimp only at h h1 h0
    have single : ∀ {fs1 : Fs}, runSingle env a fs p = (fs1, .ok) → runMain env a fs (.file p) = (fs1, 0) := by
      intro fs1 h; unfold runMain runArgs; dsimp only; rw [h]; rfl
    cases e with
    | ok =>
      dsimp only at h
      rcases hr : talkDir env a true (fun _ => none) (k + 1) fs1 rest with ⟨u, fs2, e2⟩
      rw [hr] at h
      cases h
      obtain ⟨ts, rfl, hp⟩ := talkDir_passes env a rest (k + 1) fs1 fs' u hr
      obtain ⟨c, hc, -⟩ := processSingle_ok_iff.1 (runSingle_ok.1 h1.symm)
      exact ⟨t1 :: ts, rfl, .next hc (h0 c hc) (single h1.symm) hp⟩
    | panicked => cases h
    | err =>
      have hs := runSingle_bad h1.symm (by simp)
      subst hs
      dsimp only at h
      rw [ht] at h
      cases h

/-- **C109, a directory.** If a run on a directory succeeds, what has been printed is, in order, the lines of its regular files. -/
theorem C109_directory (env : Env) (a : RunArgs) (fs fs' : Fs) (entries : List (FPath × Bool)) (t : List Char)
    (h : talkMain env a true (fun _ => none) fs (.dir entries) = (t, fs', 0)) : ∃ ts, t = ts.flatten ∧ Passes env a fs (regularFiles entries) ts fs' := by
  unfold talkMain talkArgs at h
  dsimp only at h
  rcases hr : talkDir env a true (fun _ => none) 0 fs entries with ⟨u, fs2, e⟩
  rw [hr] at h
  have h1 := congrArg Prod.fst h
  have h2 := congrArg Prod.snd h
  have h3 := congrArg Prod.fst h2
  have h4 := congrArg Prod.snd h2
  dsimp only at h1 h3 h4
  rw [status_zero.1 h4, h1, h3] at hr
  exact talkDir_passes env a entries 0 fs fs' t hr

/-- With `Separate` files the lines are those of the files as they were before the run. -/
theorem C109_directory_separate (env : Env) (a : RunArgs) (fs fs' : Fs) (entries : List (FPath × Bool)) (hs : Separate a (regularFiles entries)) (t : List Char)
    (h : talkMain env a true (fun _ => none) fs (.dir entries) = (t, fs', 0)) :
    ∃ ts, t = ts.flatten ∧ List.Forall₂ (fun p t => ∃ c, fs p = some c ∧ Prints env a c t) (regularFiles entries) ts := by
  obtain ⟨ts, rfl, hp⟩ := C109_directory env a fs fs' entries t h
  refine ⟨ts, rfl, ?_⟩
  clear h
  generalize regularFiles entries = ps at *
  induction hp with
  | done => exact .nil
  | next hc hpr hrun hpass ih =>
    rename_i fs fs1 fs2 p ps c t ts
    obtain ⟨hs1, hs2⟩ := List.pairwise_cons.1 hs
    refine .cons ⟨c, hc, hpr⟩ ?_
    have heff : ∀ q, q ≠ outputPath a p → fs1 q = fs q := by
      obtain ⟨c', -, ⟨b, -, rfl⟩ | ⟨-, rfl⟩⟩ := (C88_exact env a fs fs1 p).1 hrun
      · exact fun q hq => if_neg hq
      · exact fun _ _ => rfl
    have := ih hs2
    rw [List.forall₂_iff_get] at this ⊢
    refine ⟨this.1, fun i h1 h2 => ?_⟩
    obtain ⟨c, hc, hp⟩ := this.2 i h1 h2
    refine ⟨c, ?_, hp⟩
    rw [← heff _ (fun e => (hs1 _ (List.get_mem ..)).2.1 e.symm)]
    exact hc

/-- **C109, the command.** A command line that is accepted prints nothing unless `--verbose` is on it; and with or without it, while standard output can be written, the files
and the status are those the other properties speak about. -/
theorem C109_command (env : Env) (stat : List Char → Input) (fs : Fs) (ts : List Tok) (a : AtscArgs) (h : atscParse ts = .ok a) :
    ∃ t, atscTalk env stat (fun _ => none) fs ts = some (t, atscMain env stat fs ts) ∧ (a.verbose = false → t = []) ∧
      (a.verbose = true → ∀ path c, stat a.input = .file path → fs path = some c → Prints env a.run c t) := by
  refine ⟨(talkMain env a.run a.verbose (fun _ => none) fs (stat a.input)).1, ?_, fun hv => ?_, fun hv path c hp hc => ?_⟩
  · unfold atscTalk atscMain
    rw [h]
    dsimp only
    rw [← C109_unchanged env a.run a.verbose]
  · rw [hv, C109_quiet]
  · rw [hv, hp]
    exact C109_file env a.run fs path c hc

/-! ### Examples -/

-- 1, -1.5 and 10^16
example : debugText (F64.lit 1) = "1.0".toList := by decide +kernel
example : debugText (decRound true 15 (-1)) = "-1.5".toList := by decide +kernel
example : debugText (decRound false 1 16) = "1e16".toList := by decide +kernel
-- 0.000099999 and 0.0001
example : debugText (decRound false 99999 (-9)) = "9.9999e-5".toList := by decide +kernel
example : debugText (decRound false 1 (-4)) = "0.0001".toList := by decide +kernel
-- 2^50 + 1/4, to which .2 and .3 are equally near: .3 is shown
example : debugText (decRound false 112589990684262425 (-2)) = "1125899906842624.3".toList := by decide +kernel
example : debugList [] = "[]".toList ∧ debugList [FP.zero, FP.nan, FP.inf true] = "[0.0, NaN, -inf]".toList := by decide +kernel

/-- Samples that are quickly shown. -/
def talkSamples : List F64 := [FP.zero, FP.nan, FP.zero, FP.negZero, FP.inf true]

/-- A file with these samples. -/
def talkFs : Fs := fun q => if q = ⟨"x", "wbro"⟩ then (WavBrro.toFileWithData talkSamples).toOption else none

-- compressing, then uncompressing
example : (talkMain demoEnv demoArgs true (fun _ => none) talkFs (.file ⟨"x", "wbro"⟩)).1 = "Input=[0.0, NaN, 0.0, -0.0, -inf]\n".toList := by decide +kernel
example : (talkMain demoEnv demoArgs true (fun _ => none) talkFs (.file ⟨"x", "wbro"⟩)).2.2 = 0 := by decide +kernel
example : (talkMain demoEnv { demoArgs with uncompress := true } true (fun _ => none)
      (talkMain demoEnv demoArgs true (fun _ => none) talkFs (.file ⟨"x", "wbro"⟩)).2.1 (.file ⟨"x", "bro"⟩)).1 = "Output=[0.0, 0.0, 0.0]\n".toList := by decide +kernel
-- standard output takes four characters: no `.bro` file
example : (talkMain demoEnv demoArgs true (fun _ => some 4) talkFs (.file ⟨"x", "wbro"⟩)).1 = "Inpu".toList ∧
    (talkMain demoEnv demoArgs true (fun _ => some 4) talkFs (.file ⟨"x", "wbro"⟩)).2.1 ⟨"x", "bro"⟩ = none ∧
    (talkMain demoEnv demoArgs true (fun _ => some 4) talkFs (.file ⟨"x", "wbro"⟩)).2.2 = 101 := by decide +kernel
-- a directory with a subdirectory and two files
example : (talkMain demoEnv demoArgs true (fun _ => none) (fun q => if q = ⟨"y", "wbro"⟩ then (WavBrro.toFileWithData [FP.zero]).toOption else talkFs q)
      (.dir [(⟨"x", "wbro"⟩, true), (⟨"d", ""⟩, false), (⟨"y", "wbro"⟩, true)])).1 = "Input=[0.0, NaN, 0.0, -0.0, -inf]\nInput=[0.0]\n".toList := by decide +kernel
-- `--verbose` and the same without
example : (atscTalk demoEnv (fun _ => .file ⟨"x", "wbro"⟩) (fun _ => none) talkFs ["--compressor=rle".toList, "--verbose".toList, "x".toList]).map (·.1) =
    some "Input=[0.0, NaN, 0.0, -0.0, -inf]\n".toList := by decide +kernel
example : (atscTalk demoEnv (fun _ => .file ⟨"x", "wbro"⟩) (fun _ => none) talkFs ["--compressor=rle".toList, "x".toList]).map (·.1) = some [] := by decide +kernel

end Atsc
