import Verif.Props.NumText
import Verif.Props.CsvText
/- C95 and C106 with the numbers of the real CSV files: whole files. -/
namespace Atsc
open FP

/-! ### What is written contains only ordinary characters -/

/-- The characters of numbers. -/
def NumberChar (c : Char) : Prop := c.isDigit = true ∨ c ∈ ['-', '.', 'e', 'i', 'n', 'f', 'N', 'a']

theorem NumberChar.ordinary {c : Char} (h : NumberChar c) : c.toNat < 128 ∧ c ≠ ',' ∧ c ≠ '\n' ∧ c ≠ '\r' ∧ c ≠ '"' := by
  rcases h with h | h
  · have : 48 ≤ c.toNat ∧ c.toNat ≤ 57 := by
      simp only [Char.isDigit, Bool.and_eq_true, decide_eq_true_eq] at h
      exact ⟨UInt32.le_iff_toNat_le.1 h.1, UInt32.le_iff_toNat_le.1 h.2⟩
    refine ⟨by omega, ?_, ?_, ?_, ?_⟩ <;> · rintro rfl; revert this; decide
  · simp only [List.mem_cons, List.not_mem_nil, or_false] at h
    rcases h with rfl | rfl | rfl | rfl | rfl | rfl | rfl | rfl <;> decide

theorem showI32_chars (n : Int) : ∀ c ∈ showI32 n, NumberChar c := fun c hc => by
  rcases show_num n c hc with h | h
  · exact .inr (by rw [h]; decide)
  · exact .inl h

theorem pretty_chars {ds : List Char} (hd : Digits ds) (k : Int) : ∀ c ∈ ryuPretty ds k, NumberChar c := by
  have hdot : NumberChar '.' := .inr (by decide)
  have he : NumberChar 'e' := .inr (by decide)
  have h0 : NumberChar '0' := .inl (by decide)
  have hr : ∀ n, ∀ c ∈ List.replicate n '0', NumberChar c := fun n c hc => by rw [List.eq_of_mem_replicate hc]; exact h0
  have hds : ∀ c ∈ ds, NumberChar c := fun c hc => .inl (hd c hc)
  intro c hc
  unfold ryuPretty at hc
  dsimp only at hc
  by_cases h1 : 0 ≤ k ∧ (ds.length : Int) + k ≤ 16
  · rw [if_pos h1] at hc
    rcases List.mem_append.1 hc with hc | hc
    · exact (List.mem_append.1 hc).elim (hds c) (hr _ c)
    · rcases List.mem_cons.1 hc with rfl | hc
      · exact hdot
      · rw [List.mem_singleton.1 hc]; exact h0
  rw [if_neg h1] at hc
  by_cases h2 : 0 < (ds.length : Int) + k ∧ (ds.length : Int) + k ≤ 16
  · rw [if_pos h2] at hc
    rcases List.mem_append.1 hc with hc | hc
    · exact hds c (List.mem_of_mem_take hc)
    · rcases List.mem_cons.1 hc with rfl | hc
      · exact hdot
      · exact hds c (List.mem_of_mem_drop hc)
  rw [if_neg h2] at hc
  by_cases h3 : -5 < (ds.length : Int) + k ∧ (ds.length : Int) + k ≤ 0
  · rw [if_pos h3] at hc
    rcases List.mem_cons.1 hc with rfl | hc
    · exact h0
    rcases List.mem_cons.1 hc with rfl | hc
    · exact hdot
    exact (List.mem_append.1 hc).elim (hr _ c) (hds c)
  rw [if_neg h3] at hc
  by_cases h4 : ds.length = 1
  · rw [if_pos h4] at hc
    rcases List.mem_append.1 hc with hc | hc
    · exact hds c hc
    · rcases List.mem_cons.1 hc with rfl | hc
      · exact he
      · exact showI32_chars _ c hc
  rw [if_neg h4] at hc
  rcases List.mem_append.1 hc with hc | hc
  · exact hds c (List.mem_of_mem_take hc)
  rcases List.mem_cons.1 hc with rfl | hc
  · exact hdot
  rcases List.mem_append.1 hc with hc | hc
  · exact hds c (List.mem_of_mem_drop hc)
  rcases List.mem_cons.1 hc with rfl | hc
  · exact he
  · exact showI32_chars _ c hc

theorem text_chars (x : F64) : ∀ c ∈ ryuText x, NumberChar c := by
  intro c hc
  have w1 : ∀ c ∈ "NaN".toList, NumberChar c := fun c hc => by
    simp only [show "NaN".toList = ['N', 'a', 'N'] from by decide, List.mem_cons, List.not_mem_nil, or_false] at hc
    rcases hc with rfl | rfl | rfl <;> exact .inr (by decide)
  have w2 : ∀ c ∈ "inf".toList, NumberChar c := fun c hc => by
    simp only [show "inf".toList = ['i', 'n', 'f'] from by decide, List.mem_cons, List.not_mem_nil, or_false] at hc
    rcases hc with rfl | rfl | rfl <;> exact .inr (by decide)
  have w3 : ∀ c ∈ "0.0".toList, NumberChar c := fun c hc => by
    simp only [show "0.0".toList = ['0', '.', '0'] from by decide, List.mem_cons, List.not_mem_nil, or_false] at hc
    rcases hc with rfl | rfl | rfl
    · exact .inl (by decide)
    · exact .inr (by decide)
    · exact .inl (by decide)
  unfold ryuText at hc
  by_cases h1 : x.isNaN = true
  · rw [if_pos h1] at hc; exact w1 c hc
  rw [if_neg h1] at hc
  rcases List.mem_append.1 hc with hc | hc
  · by_cases h2 : x.sign = true
    · rw [if_pos h2] at hc
      rw [List.mem_singleton.1 hc]; exact .inr (by decide)
    · rw [if_neg h2] at hc; cases hc
  by_cases h2 : x.isInf = true
  · rw [if_pos h2] at hc; exact w2 c hc
  rw [if_neg h2] at hc
  by_cases h3 : x.absVal = 0
  · rw [if_pos h3] at hc; exact w3 c hc
  rw [if_neg h3] at hc
  exact pretty_chars (toDigits_digits _) _ c hc

/-- The real writer and reader of numbers meet the hypothesis of C95. -/
theorem csvNumText_lawful : csvNumText.Lawful where
  int_back _ h := C106_timestamp_back h
  float_back x h := C106_shown_reads x h
  int_chars n c hc := (showI32_chars n c hc).ordinary
  float_chars x c hc := (text_chars x c hc).ordinary

/-- Every decimal has a nearest double. -/
theorem nearest_exists (neg : Bool) {body : List Char} {v : ℚ} (h : Decimal body v) : ∃ x : F64, Nearest neg v x := by
  obtain ⟨m, e, -, rfl⟩ := (decimal_iff body v).1 h
  exact ⟨_, decRound_nearest neg m e⟩

/-- **C106, precision.** A number of magnitude at most 2^1023 is read as a finite double whose relative distance is at most 2^-53, or whose absolute distance is at most 2^-1075 (half the smallest
subnormal). -/
theorem C106_close {body : List Char} {v : ℚ} (h : Decimal body v) (hv : v ≤ 2 ^ 1023) {neg : Bool} {x : F64} (hx : Nearest neg v x) :
    x.isFinite = true ∧ |x.val - signedQ neg v| ≤ max (1 / 2 ^ 1075) (v / 2 ^ 53) := by
  obtain ⟨m, e, -, rfl⟩ := (decimal_iff body v).1 h
  have hx' := nearest_unique hx (decRound_nearest neg m e)
  obtain ⟨p, q, hq, hr, hpq⟩ := decRound_frac m e
  rw [hr] at hx'
  have h0 : 0 ≤ (m : ℚ) * (10 : ℚ) ^ e := mul_nonneg (Nat.cast_nonneg _) (ten_pos e).le
  generalize (m : ℚ) * (10 : ℚ) ^ e = w at *
  have hs : signedQ neg w = sgn neg * ((p : ℚ) / q / 2 ^ qexp 52 11) := by
    rw [hpq, mul_div_assoc, div_self (qpow_posQ 52 11).ne', mul_one]
    cases neg
    · exact (one_mul w).symm
    · exact (neg_one_mul w).symm
  have ha : |signedQ neg w| = w := by
    cases neg
    · exact abs_of_nonneg h0
    · exact (abs_neg w).trans (abs_of_nonneg h0)
  have := ofRound_err64 neg hq hs (by rw [ha]; exact hv)
  rw [← hx'] at this
  unfold ulpErr at this
  rwa [ha] at this

/-! ### Whole files -/

/-- Specification: what remains of a value in a CSV file; only NaNs change, all to the same one. -/
def oneNaN (x : F64) : F64 := if x.isNaN = true then FP.nan else x

/-- **C95 without assumptions on number formatting.** Any samples with 64-bit timestamps, written by csv-compressor, are read back by csv-compressor as the same samples; every NaN becomes the one
quiet NaN, nothing else changes. -/
theorem C95_real (ss : List MSample) (ht : ∀ s ∈ ss, InI64 s.timestamp) :
    csvDeserialize csvNumText (csvSerialize csvNumText ss) = some (ss.map fun s => ⟨s.timestamp, oneNaN s.value⟩) := by
  by_cases h0 : ss = []
  · subst h0; rfl
  unfold csvSerialize
  rw [if_neg h0]
  have h1 := serialized_text csvNumText_lawful ss
  have htext : CsvText (["timestamp".toList, "value".toList] :: ss.map fun s => [csvNumText.showInt s.timestamp, csvNumText.showFloat s.value])
      ("timestamp,value\n".toList ++ ss.flatMap (csvLine csvNumText)) :=
    .row (s := "timestamp,value".toList) (c := '\n')
      (.cons (s := "timestamp".toList) (t := "value".toList) (.bare (by decide) (by decide) (by decide) (by decide)) (.one (.bare (by decide) (by decide) (by decide) (by decide))))
      (by decide) (.inl rfl) h1
  have hasc : HoldsText (textBytes ("timestamp,value\n".toList ++ ss.flatMap (csvLine csvNumText))) ("timestamp,value\n".toList ++ ss.flatMap (csvLine csvNumText)) :=
    .inr ⟨rfl, by
      show some 't' ≠ _
      decide⟩
  rw [C95_reads csvNumText hasc htext, List.forall₂_map_left_iff, List.forall₂_map_right_iff, List.forall₂_same]
  intro s hs
  have hne : "timestamp".toList ≠ "value".toList := by decide
  refine ⟨rfl, 0, 1, (only_two hne).1, (only_two hne).2, ⟨_, rfl, C106_timestamp_back (ht s hs)⟩, ⟨_, rfl, ?_⟩⟩
  show parseF64 (ryuText s.value) = some (oneNaN s.value)
  unfold oneNaN
  by_cases hn : s.value.isNaN = true
  · rw [if_pos hn]; exact (C106_shown_nan _ hn).2
  · rw [if_neg hn]; exact C106_shown_reads _ (by simpa using hn)

/-- C95 for whole runs, without assumptions on number formatting: a CSV file with regularly spaced samples of one day, compressed and uncompressed by csv-compressor, gives a CSV file that its own
reader accepts again: as many samples as before, at the seconds of the day of the originals, with the values the compressed file holds. -/
theorem C95_real_files (env : CsvEnv) (hrd : env.readCsv = csvDeserialize csvNumText) (hwr : env.writeCsv = csvSerialize csvNumText)
    (hE : env.E.Lawful) (a b : CsvArgs) (ha : a.comp.Valid) (fs : Fs) (input : FPath) (ss : List MSample)
    (hu : a.uncompress = false) (hnc : a.noCompression = false) (hov : a.outputVsri = true) (hub : b.uncompress = true)
    (hf : fs input = some (csvSerialize csvNumText ss)) (hts : ∀ s ∈ ss, InI64 s.timestamp)
    (t0 step : Int) (h0 : 0 ≤ t0) (hm : 0 < step) (hn : 2 ≤ ss.length) (hlast : t0 + step * ((ss.length : Int) - 1) < 86400)
    (htimes : ss.map (fun s => daySecond s.timestamp) = regular t0 step ss.length)
    (hvalid : ∀ s ∈ ss, env.valid (s.timestamp.tdiv 1000) = true) (hfin : ∀ s ∈ ss, s.value.isFinite = true) :
    ∃ fs1 bro, csvRun env a fs input = (fs1, .ok ()) ∧ fs1 ((a.base input).withExt "bro") = some bro ∧
      (bro.length < 2 ^ 64 → ∃ fs2 csv d out, csvRun env b fs1 ((a.base input).withExt "bro") = (fs2, .ok ()) ∧
        fs2 ((b.base ((a.base input).withExt "bro")).withExt "csv") = some csv ∧ decompressData env.E bro = .ok d ∧
        csvDeserialize csvNumText csv = some out ∧ out.map (·.value) = d.map oneNaN ∧ out.map (·.timestamp) = ss.map (fun s => daySecond s.timestamp)) := by
  have hr : env.readCsv (csvSerialize csvNumText ss) = some ss := by
    rw [hrd]; exact C95_csv_roundtrip csvNumText csvNumText_lawful ss hts fun s hs => FP.isFinite_not_nan (hfin s hs)
  obtain ⟨fs1, bro, h1, h2, h3⟩ := C72_round_trip_regular env hE a b ha fs input _ ss hu hnc hov hub hf hr t0 step h0 hm hn hlast htimes hvalid hfin
  refine ⟨fs1, bro, h1, h2, fun hl => ?_⟩
  obtain ⟨fs2, out, k1, k2, k3, -, k5⟩ := h3 hl
  have ht : ∀ s ∈ out, InI64 s.timestamp := fun s hs => by
    have hm : s.timestamp ∈ ss.map fun s => daySecond s.timestamp := k3 ▸ List.mem_map.2 ⟨s, hs, rfl⟩
    obtain ⟨s', -, e⟩ := List.mem_map.1 hm
    unfold daySecond at e
    unfold InI64; omega
  refine ⟨fs2, _, _, _, k1, k2, k5, by rw [hwr]; exact C95_real out ht, ?_, ?_⟩
  · rw [List.map_map, List.map_map]; rfl
  · rw [List.map_map, ← k3]; rfl

/-- **C106, a whole column.** `atsc --csv --fields=T,V` on a table whose column `V` holds decimal notations of the numbers `vs` (with signs `negs`), written in any way, compresses the doubles nearest
to these numbers, in order. -/
theorem C106_column (env : Env) (henv : env.rows = csvRows) (hparse : env.parse = parseF64) (a : RunArgs) (hu : a.uncompress = false) (hc : a.csv = true)
    (hh : a.noHeader = false) (tf vf : List Char) (ht : ',' ∉ tf) (hv : ',' ∉ vf) (hf : a.fields = tf ++ ',' :: vf)
    (fs : Fs) (path : FPath) (file : Bytes) (hfile : fs path = some file) (text : List Char) (hasc : HoldsText file text)
    (header : Row) (rows : List Row) (htext : CsvText (header :: rows) text) (htf : tf ∈ header) (i : Nat) (hi : IsFirst header vf i)
    (vs : List (Bool × ℚ))
    (hvs : List.Forall₂ (fun (r : Row) (v : Bool × ℚ) => r.length = header.length ∧ ∃ f body, r[i]? = some f ∧ Signed f v.1 body ∧ Decimal body v.2) rows vs) :
    ∃ d : List F64, List.Forall₂ (fun v x => Nearest v.1 v.2 x) vs d ∧
      processSingle env a fs path = (compressData env.E env.p d a.comp).map fun b => (fs.write (path.withExt "bro") b, .ok ()) := by
  obtain ⟨d, h1, h2⟩ : ∃ d : List F64, List.Forall₂ (fun (v : Bool × ℚ) x => Nearest v.1 v.2 x) vs d ∧
      List.Forall₂ (fun (r : Row) x => r.length = header.length ∧ ∃ f, r[i]? = some f ∧ parseF64 f = some x) rows d := by
    clear htext
    induction hvs with
    | nil => exact ⟨[], .nil, .nil⟩
    | @cons r v rows vs h _ ih =>
      obtain ⟨d, h1, h2⟩ := ih
      obtain ⟨hl, f, body, hf, hs, hd⟩ := h
      obtain ⟨x, hx⟩ := nearest_exists v.1 hd
      exact ⟨x :: d, .cons hx h1, .cons ⟨hl, f, hf, (C106_exact f x).2 ⟨v.1, body, hs, .inl ⟨v.2, hd, hx⟩⟩⟩ h2⟩
  exact ⟨d, h1, C93_column env henv a hu hc hh tf vf ht hv hf fs path file hfile text hasc header rows htext htf d ⟨i, hi, by rw [hparse]; exact h2⟩⟩

/-- C95 on a concrete file: a negative timestamp, 0.1, negative zero and a NaN with a payload. -/
example : csvSerialize csvNumText [⟨-5, ofBits 0x3fb999999999999a⟩, ⟨1700000000000, ofBits 0x8000000000000000⟩, ⟨7, ofBits 0xfff8000000000123⟩] =
      textBytes "timestamp,value\n-5,0.1\n1700000000000,-0.0\n7,NaN\n".toList ∧
    csvDeserialize csvNumText (csvSerialize csvNumText [⟨-5, ofBits 0x3fb999999999999a⟩, ⟨1700000000000, ofBits 0x8000000000000000⟩, ⟨7, ofBits 0xfff8000000000123⟩]) =
      some [⟨-5, ofBits 0x3fb999999999999a⟩, ⟨1700000000000, ofBits 0x8000000000000000⟩, ⟨7, FP.nan⟩] := by
  refine ⟨by decide +kernel, ?_⟩
  rw [C95_real _ (by decide +kernel)]
  decide +kernel

/-- The hypotheses of `C106_column` on a table `t,v` with the rows `1,0.1` and `2,-1e400`. -/
example : ∃ (header : Row) (rows : List Row) (text : List Char) (vs : List (Bool × ℚ)), CsvText (header :: rows) text ∧ text = "t,v\n1,0.1\n2,-1e400\n".toList ∧ ['t'] ∈ header ∧
    IsFirst header ['v'] 1 ∧ vs = [(false, 1 / 10), (true, 10 ^ 400)] ∧
    List.Forall₂ (fun (r : Row) (v : Bool × ℚ) => r.length = header.length ∧ ∃ f body, r[1]? = some f ∧ Signed f v.1 body ∧ Decimal body v.2) rows vs := by
  refine ⟨[['t'], ['v']], [[['1'], "0.1".toList], [['2'], "-1e400".toList]], _, _, ?_, rfl, by decide, findIdx_first.1 (by decide), rfl, ?_⟩
  · exact .row (s := "t,v".toList) (c := '\n') (.cons (s := ['t']) (t := ['v']) (.bare (by decide) (by decide) (by decide) (by decide)) (.one (.bare (by decide) (by decide) (by decide) (by decide)))) (by decide) (.inl rfl)
      (.row (s := "1,0.1".toList) (c := '\n') (.cons (s := ['1']) (t := "0.1".toList) (.bare (by decide) (by decide) (by decide) (by decide)) (.one (.bare (by decide) (by decide) (by decide) (by decide)))) (by decide) (.inl rfl)
        (.row (s := "2,-1e400".toList) (c := '\n') (.cons (s := ['2']) (t := "-1e400".toList) (.bare (by decide) (by decide) (by decide) (by decide)) (.one (.bare (by decide) (by decide) (by decide) (by decide)))) (by decide) (.inl rfl) .nil))
  · refine .cons ⟨rfl, "0.1".toList, "0.1".toList, rfl, .inl ⟨rfl, .inl rfl⟩, (decimal_iff _ _).2 ⟨1, -1, by decide +kernel, by norm_num⟩⟩
      (.cons ⟨rfl, "-1e400".toList, "1e400".toList, rfl, .inr ⟨rfl, by decide⟩, (decimal_iff _ _).2 ⟨1, 400, by decide +kernel, ?_⟩⟩ .nil)
    rw [Nat.cast_one, one_mul]
    exact (zpow_natCast (10 : ℚ) 400).symm

end Atsc
