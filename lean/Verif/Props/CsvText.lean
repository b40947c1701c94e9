import Verif.Model.CsvText
import Verif.Model.NumText
import Verif.Spec.CsvText
import Verif.Lemmas.CsvChars
import Verif.Props.Rerun
import Verif.Props.CsvCompressor
import Verif.Props.VsriFile
/- C93-C95: CSV text, and what the two programs make of it. -/
namespace Atsc
/-! ### C94 -/

/-- Specification: the file holds the text in UTF-8, with or without a byte order mark (a text that itself begins with U+FEFF needs one). -/
def HoldsText (file : Bytes) (text : List Char) : Prop :=
  file = [0xEF, 0xBB, 0xBF] ++ text.flatMap String.utf8EncodeChar ∨ file = text.flatMap String.utf8EncodeChar ∧ text.head? ≠ some (Char.ofNat 0xFEFF)

theorem strip_of {file : Bytes} {text : List Char} (h : HoldsText file text) : stripBom file = textBytes text := by
  rcases h with rfl | ⟨rfl, h⟩
  · rfl
  · unfold stripBom
    rw [if_neg]
    · rfl
    · intro hb
      apply h
      obtain ⟨r, hr⟩ : ∃ r, text.flatMap String.utf8EncodeChar = String.utf8EncodeChar (Char.ofNat 0xFEFF) ++ r :=
        ⟨(text.flatMap String.utf8EncodeChar).drop 3, by
          conv_lhs => rw [← List.take_append_drop 3 (text.flatMap String.utf8EncodeChar), hb]
          rfl⟩
      have e1 := utf8_text text
      unfold textBytes at e1
      rw [hr, utf8_char] at e1
      cases hd : utf8Dec r with
      | none => rw [hd] at e1; cases e1
      | some l => rw [hd] at e1; rw [← Option.some.inj e1]; rfl

/-- **C94, reading.** Every CSV file is read as its rows: whichever way fields are quoted, lines ended, and blank lines put between, with or without
a byte order mark, whatever characters the fields hold. -/
theorem C94_reads {file : Bytes} {text : List Char} (ht : HoldsText file text) {rows : List Row} (h : CsvText rows text) :
    csvRows file = rows.map rowBytes := by
  unfold csvRows
  rw [strip_of ht]
  have := tokens_text text .init
  rw [ch_reads h] at this
  exact this

/-- C94: a text has only one reading. -/
theorem C94_unambiguous {rows rows' : List Row} {text : List Char} (h : CsvText rows text) (h' : CsvText rows' text) : rows = rows' :=
  (ch_reads h).symm.trans (ch_reads h')

/-- C94: every list of rows with at least one field each can be written (all fields quoted, for example). -/
theorem C94_writable : ∀ (rows : List Row), (∀ r ∈ rows, r ≠ []) → ∃ text, CsvText rows text := by
  have hrow : ∀ r : Row, r ≠ [] → ∃ s, WrittenRow r s ∧ s ≠ [] := by
    intro r
    induction r with
    | nil => intro h; exact absurd rfl h
    | cons f r ih =>
      intro _
      by_cases hr : r = []
      · subst hr; exact ⟨_, .one (.quoted f), by simp [quotedField]⟩
      · obtain ⟨s, h1, _⟩ := ih hr
        exact ⟨_, .cons (.quoted f) h1, by simp⟩
  intro rows
  induction rows with
  | nil => intro _; exact ⟨[], .nil⟩
  | cons r rs ih =>
    intro h
    obtain ⟨t, ht⟩ := ih fun r' hr' => h r' (by simp [hr'])
    obtain ⟨s, h1, h2⟩ := hrow r (h r (by simp))
    exact ⟨_, .row h1 h2 (.inl rfl) ht⟩

/-- C94: blank lines are skipped, so an empty cell of a one-column file vanishes: this file with an empty second value is read as two rows. -/
theorem C94_refuted_empty_cell : csvRows "1\n\n3\n".toUTF8.toList = [["1".toUTF8.toList], ["3".toUTF8.toList]] := by decide +kernel

/-- A table with quotes, commas and a line break inside fields, mixed line ends and a blank line. -/
example : csvRows "time,\"a \"\"b\"\", c\"\r\n\n1,\"x\nü\"\r2,z".toUTF8.toList =
    [["time".toUTF8.toList, "a \"b\", c".toUTF8.toList], ["1".toUTF8.toList, "x\nü".toUTF8.toList], ["2".toUTF8.toList, "z".toUTF8.toList]] := by decide +kernel
example : CsvText [["time".toList, "value".toList], ["1".toList, "2,5".toList]] "time,value\r\n1,\"2,5\"".toList :=
  .row (s := "time,value".toList) (c := '\r') (t := "\n1,\"2,5\"".toList)
    (.cons (s := "time".toList) (t := "value".toList) (.bare (by decide) (by decide) (by decide) (by decide)) (.one (.bare (by decide) (by decide) (by decide) (by decide))))
    (by decide) (.inr rfl)
    (.blank (.inl rfl) (.last (s := "1,\"2,5\"".toList)
      (.cons (s := "1".toList) (t := quotedField "2,5".toList) (.bare (by decide) (by decide) (by decide) (by decide)) (.one (.quoted _))) (by decide)))

/-! ### C93 -/

/-- Specification: in the table with this header the (first) column named `name` reads as `d`, and no row is longer or shorter than the header. -/
def ColumnReads (parse : List Char → Option F64) (header : Row) (rows : List Row) (name : List Char) (d : List F64) : Prop :=
  ∃ i, IsFirst header name i ∧ List.Forall₂ (fun (r : Row) x => r.length = header.length ∧ ∃ f, r[i]? = some f ∧ parse f = some x) rows d

theorem column_reads {parse : List Char → Option F64} {i w : Nat} {rows : List Row} {d : List F64}
    (h : List.Forall₂ (fun (r : Row) x => r.length = w ∧ ∃ f, r[i]? = some f ∧ parse f = some x) rows d) :
    ReadsAs parse i w (rows.map rowBytes) (d.map fun x => ⟨0, x⟩) := by
  unfold ReadsAs
  rw [List.forall₂_map_right_iff, List.forall₂_map_left_iff]
  refine h.imp ?_
  rintro r x ⟨h1, f, h2, h3⟩
  exact ⟨r, rfl, h1, rfl, f, h2, h3⟩

theorem map_value (d : List F64) : (d.map fun x => (⟨0, x⟩ : CsvSample)).map (·.value) = d := by
  rw [List.map_map]; conv_rhs => rw [← List.map_id d]
  rfl

/-- **C93, with a header.** `atsc --csv --fields=T,V` compresses exactly the column named `V`: the samples are the parsed fields of that column, in file
order, however the table is written, whatever the other columns hold, wherever the column stands. -/
theorem C93_column (env : Env) (henv : env.rows = csvRows) (a : RunArgs) (hu : a.uncompress = false) (hc : a.csv = true) (hh : a.noHeader = false)
    (tf vf : List Char) (ht : ',' ∉ tf) (hv : ',' ∉ vf) (hf : a.fields = tf ++ ',' :: vf)
    (fs : Fs) (path : FPath) (file : Bytes) (hfile : fs path = some file) (text : List Char) (hasc : HoldsText file text)
    (header : Row) (rows : List Row) (htext : CsvText (header :: rows) text) (htf : tf ∈ header)
    (d : List F64) (hd : ColumnReads env.parse header rows vf d) :
    processSingle env a fs path =
      (compressData env.E env.p d a.comp).map fun b => (fs.write (path.withExt "bro") b, .ok ()) := by
  obtain ⟨i, hi, hd⟩ := hd
  have hr := (C52_with_headers env.parse (rowBytes header) (rows.map rowBytes) tf vf (d.map fun x => ⟨0, x⟩)).2 ⟨header, rfl, htf, i, hi, column_reads hd⟩
  have hcsv : readCsv env a file = .ok (.ok d) := by
    unfold readCsv
    rw [hh, hf, split_append ht, split_none hv, henv, C94_reads hasc htext]
    simp only [Bool.false_eq_true, if_false, List.map_cons, hr, ok_bind, map_value]
  unfold processSingle
  rw [if_neg (by simp [hu]), if_pos hc, hfile]
  simp only [hcsv, ok_bind]
  cases compressData env.E env.p d a.comp <;> rfl

/-- **C93, without a header.** `--no-header` compresses the first field of every line. -/
theorem C93_no_header (env : Env) (henv : env.rows = csvRows) (a : RunArgs) (hu : a.uncompress = false) (hc : a.csv = true) (hh : a.noHeader = true)
    (fs : Fs) (path : FPath) (file : Bytes) (hfile : fs path = some file) (text : List Char) (hasc : HoldsText file text)
    (rows : List Row) (w : Nat) (htext : CsvText rows text)
    (d : List F64) (hd : List.Forall₂ (fun (r : Row) x => r.length = w ∧ ∃ f, r.head? = some f ∧ env.parse f = some x) rows d) :
    processSingle env a fs path =
      (compressData env.E env.p d a.comp).map fun b => (fs.write (path.withExt "bro") b, .ok ()) := by
  have hr : readSamples env.parse (rows.map rowBytes) = .ok (.ok (d.map fun x => ⟨0, x⟩)) := by
    rw [C52_no_headers]
    apply column_reads
    cases hd with
    | nil => exact .nil
    | cons h1 h2 =>
      rw [List.map_cons, List.headD_cons, rowBytes_length, h1.1]
      exact .cons ⟨h1.1, by simpa [List.head?_eq_getElem?] using h1.2⟩ (h2.imp fun r x h => ⟨h.1, by simpa [List.head?_eq_getElem?] using h.2⟩)
  have hcsv : readCsv env a file = .ok (.ok d) := by
    unfold readCsv
    rw [hh, henv, C94_reads hasc htext]
    simp only [if_true, hr, ok_bind, map_value]
  unfold processSingle
  rw [if_neg (by simp [hu]), if_pos hc, hfile]
  simp only [hcsv, ok_bind]
  cases compressData env.E env.p d a.comp <;> rfl

/-- C93: the same samples give the same compressed file whether they come from a CSV file or from a WBRO file. -/
theorem C93_same_as_wbro (env : Env) (ha : 8 ∣ env.addr) (a b : RunArgs) (hu : a.uncompress = false) (hc : a.csv = true)
    (hub : b.uncompress = false) (hcb : b.csv = false) (hab : a.comp = b.comp) (fs : Fs) (stem : String) (c f : Bytes) (d : List F64)
    (hfile : fs ⟨stem, "csv"⟩ = some c) (hd : readCsv env a c = .ok (.ok d))
    (hw : fs ⟨stem, "wbro"⟩ = some f) (hl : d.length ≤ 2 ^ 28) (hf : WavBrro.toFileWithData d = .ok f) :
    processSingle env a fs ⟨stem, "csv"⟩ = processSingle env b fs ⟨stem, "wbro"⟩ := by
  obtain ⟨f', g1, g2⟩ := C39_round_trip d hl env.addr ha
  rw [hf] at g1
  obtain rfl := Except.ok.inj g1
  unfold processSingle
  rw [if_neg (by simp [hu]), if_pos hc, hfile, if_neg (by simp [hub]), if_neg (by simp [hcb]), hw]
  simp only [hd, g2, ok_bind, hab]
  rfl

/-- C93: `--fields` without a comma ends the program, on any file. -/
theorem C93_refuted_one_field (env : Env) (a : RunArgs) (hu : a.uncompress = false) (hc : a.csv = true) (hh : a.noHeader = false)
    (hf : ',' ∉ a.fields) (fs : Fs) (path : FPath) (c : Bytes) (hfile : fs path = some c) : processSingle env a fs path = .error .index := by
  unfold processSingle readCsv
  rw [if_neg (by simp [hu]), if_pos hc, hfile, hh, split_none hf]
  rfl

/-- C93: a record that is not UTF-8 (or has another number of fields than the header) ends the program with a panic, wherever the bad bytes stand,
even in a column nobody asked for; nothing is written. -/
theorem C93_refuted_bad_record (env : Env) (henv : env.rows = csvRows) (a : RunArgs) (hu : a.uncompress = false) (hc : a.csv = true) (hh : a.noHeader = false)
    (tf vf : List Char) (ht : ',' ∉ tf) (hv : ',' ∉ vf) (hf : a.fields = tf ++ ',' :: vf) (fs : Fs) (path : FPath) (file : Bytes) (hfile : fs path = some file)
    (header : Row) (pre : List Row) (bad : BRow) (post : List BRow) (hrows : csvRows file = rowBytes header :: (pre.map rowBytes ++ bad :: post))
    (i : Nat) (htf : tf ∈ header) (hi : IsFirst header vf i) (hlen : ∀ x ∈ pre, x.length = header.length)
    (hpre : ∀ x ∈ pre, ∃ g v, x[i]? = some g ∧ env.parse g = some v) (hbad : bad.length ≠ header.length ∨ BadText bad) :
    processSingle env a fs path = .error .unwrap := by
  have hcsv : readCsv env a file = .error .unwrap := by
    unfold readCsv
    rw [hh, hf, split_append ht, split_none hv, henv, hrows]
    simp only [Bool.false_eq_true, if_false, C52_ragged_panics env.parse header pre post bad tf vf i htf hi hlen hpre hbad]
    rfl
  unfold processSingle
  rw [if_neg (by simp [hu]), if_pos hc, hfile]
  simp only [hcsv]
  rfl

/-- `t,v`, then `1,7`, then `2` and the byte FF: the last record is not text. -/
example : csvRows [0x74, 0x2C, 0x76, 0x0A, 0x31, 0x2C, 0x37, 0x0A, 0x32, 0x2C, 0xFF, 0x0A] =
    rowBytes [['t'], ['v']] :: ([[['1'], ['7']]].map rowBytes ++ [[0x32], [0xFF]] :: []) ∧ BadText [[0x32], [0xFF]] :=
  ⟨by decide +kernel, (decode_bad _).1 (by decide +kernel)⟩

/-! ### C95 -/

/-- What the writer and the reader of numbers must do for each other: what is written contains only ordinary characters and reads back.  (NaN is
excluded: all NaNs are written alike.) -/
structure NumText.Lawful (nt : NumText) : Prop where
  int_back : ∀ n, InI64 n → nt.parseInt (nt.showInt n) = some n
  float_back : ∀ x : F64, x.isNaN = false → nt.parseFloat (nt.showFloat x) = some x
  int_chars : ∀ n, ∀ c ∈ nt.showInt n, c.toNat < 128 ∧ c ≠ ',' ∧ c ≠ '\n' ∧ c ≠ '\r' ∧ c ≠ '"'
  float_chars : ∀ x, ∀ c ∈ nt.showFloat x, c.toNat < 128 ∧ c ≠ ',' ∧ c ≠ '\n' ∧ c ≠ '\r' ∧ c ≠ '"'

theorem written_of_chars {f : List Char} (h : ∀ c ∈ f, c.toNat < 128 ∧ c ≠ ',' ∧ c ≠ '\n' ∧ c ≠ '\r' ∧ c ≠ '"') : WrittenField f f := by
  refine .bare ?_ (fun hc => (h _ hc).2.1 rfl) (fun hc => (h _ hc).2.2.1 rfl) fun hc => (h _ hc).2.2.2.1 rfl
  cases f with
  | nil => simp
  | cons c f =>
    intro e
    exact (h c (by simp)).2.2.2.2 (by simpa using e)

theorem serialized_text {nt : NumText} (hn : nt.Lawful) : ∀ ss : List MSample,
    CsvText (ss.map fun s => [nt.showInt s.timestamp, nt.showFloat s.value]) (ss.flatMap (csvLine nt)) := by
  intro ss
  induction ss with
  | nil => exact .nil
  | cons s ss ih =>
    · have := CsvText.row (c := '\n') (.cons (written_of_chars (hn.int_chars s.timestamp)) (.one (written_of_chars (hn.float_chars s.value))))
        (by simp) (.inl rfl) ih
      simpa [csvLine] using this

/-- Specification: the name stands in the header exactly once, at position `i`. -/
def OnlyAt (names : Row) (name : List Char) (i : Nat) : Prop := names[i]? = some name ∧ ∀ j, names[j]? = some name → j = i

theorem only_count {names : Row} {n : List Char} {i : Nat} (h : names.findIdx? (· == n) = some i) : names.count n = 1 ↔ OnlyAt names n i := by
  have hi := findIdx_first.1 h
  have hlt : i < names.length := (List.getElem?_eq_some_iff.1 hi.1).1
  have e : names = names.take i ++ n :: names.drop (i + 1) := by
    conv_lhs => rw [← List.take_append_drop i names, List.drop_eq_getElem_cons hlt]
    have := (List.getElem?_eq_some_iff.1 hi.1).2
    rw [this]
  have h0 : (names.take i).count n = 0 := by
    rw [List.count_eq_zero]
    intro hm
    obtain ⟨j, hj, hj'⟩ := List.getElem_of_mem hm
    rw [List.length_take] at hj
    refine hi.2 j (by omega) ?_
    rw [List.getElem_take] at hj'
    rw [List.getElem?_eq_getElem (by omega), hj']
  have hc : names.count n = 1 + (names.drop (i + 1)).count n := by
    conv_lhs => rw [e]
    rw [List.count_append, h0, List.count_cons_self]; omega
  rw [hc]
  constructor
  · intro h1
    refine ⟨hi.1, fun j hj => ?_⟩
    by_contra hne
    rcases lt_or_gt_of_ne hne with hl | hl
    · exact hi.2 j hl hj
    · have : n ∈ names.drop (i + 1) := by
        refine List.mem_of_getElem? (i := j - (i + 1)) ?_
        rw [List.getElem?_drop, ← hj]; congr 1; omega
      have := List.count_pos_iff.2 this
      omega
  · intro h1
    have : (names.drop (i + 1)).count n = 0 := by
      rw [List.count_eq_zero]
      intro hm
      obtain ⟨j, hj, hj'⟩ := List.getElem_of_mem hm
      rw [List.length_drop] at hj
      rw [List.getElem_drop] at hj'
      have := h1.2 (i + 1 + j) (by rw [List.getElem?_eq_getElem (by omega), hj'])
      omega
    omega

theorem only_first {names : Row} {n : List Char} {i : Nat} (h : OnlyAt names n i) : names.findIdx? (· == n) = some i :=
  findIdx_first.2 ⟨h.1, fun j hj hn => by have := h.2 j hn; omega⟩

/-- Specification: the record `r` of a table with this header reads as the sample `s`. -/
def RecordReads (nt : NumText) (names r : Row) (s : MSample) : Prop :=
  r.length = names.length ∧ ∃ i j, OnlyAt names "timestamp".toList i ∧ OnlyAt names "value".toList j ∧
    (∃ f, r[i]? = some f ∧ nt.parseInt f = some s.timestamp) ∧ ∃ f, r[j]? = some f ∧ nt.parseFloat f = some s.value

theorem get_bind {α β : Type} {o : Option α} {f : α → Option β} {b : β} : (o >>= f) = some b ↔ ∃ a, o = some a ∧ f a = some b := by
  cases o with
  | none => simp
  | some a => simp

theorem byName_iff (nt : NumText) (names r : Row) (hl : r.length = names.length) (s : MSample) : csvByName nt names r = some s ↔ RecordReads nt names r s := by
  unfold csvByName RecordReads
  constructor
  · intro h
    split at h
    · rename_i hc
      obtain ⟨i, hi, h⟩ := get_bind.1 h
      obtain ⟨j, hj, h⟩ := get_bind.1 h
      obtain ⟨t, ht, h⟩ := get_bind.1 h
      obtain ⟨v, hv, h⟩ := get_bind.1 h
      obtain ⟨f, f1, f2⟩ := get_bind.1 ht
      obtain ⟨g, g1, g2⟩ := get_bind.1 hv
      rw [← Option.some.inj h]
      exact ⟨hl, i, j, (only_count hi).1 hc.1, (only_count hj).1 hc.2, ⟨f, f1, f2⟩, ⟨g, g1, g2⟩⟩
    · cases h
  · rintro ⟨_, i, j, hi, hj, ⟨f, f1, f2⟩, ⟨g, g1, g2⟩⟩
    have ei := only_first hi
    have ej := only_first hj
    rw [if_pos ⟨(only_count ei).2 hi, (only_count ej).2 hj⟩, ei, ej]
    exact get_bind.2 ⟨i, rfl, get_bind.2 ⟨j, rfl, get_bind.2 ⟨s.timestamp, get_bind.2 ⟨f, f1, f2⟩, get_bind.2 ⟨s.value, get_bind.2 ⟨g, g1, g2⟩, rfl⟩⟩⟩⟩

theorem mapM_iff {α β : Type} (f : α → Option β) : ∀ (l : List α) (o : List β), l.mapM f = some o ↔ List.Forall₂ (fun a b => f a = some b) l o
  | [], o => by
    rw [List.mapM_nil]
    constructor
    · intro h; rw [← Option.some.inj h]; exact .nil
    · intro h; cases h; rfl
  | a :: l, o => by
    rw [List.mapM_cons]
    constructor
    · intro h
      obtain ⟨b, hb, h⟩ := get_bind.1 h
      obtain ⟨bs, hbs, h⟩ := get_bind.1 h
      rw [← Option.some.inj h]
      exact .cons hb ((mapM_iff f l bs).1 hbs)
    · intro h
      cases h with
      | cons h1 h2 => exact get_bind.2 ⟨_, h1, get_bind.2 ⟨_, (mapM_iff f l _).2 h2, rfl⟩⟩

theorem deserialize_iff (nt : NumText) (names : Row) (rows : List Row) (ss : List MSample) :
    (match (names :: rows).map rowBytes with
      | [] => some []
      | h :: rows => rows.mapM fun b => do
          let r ← csvRecord h.length b
          match h.mapM utf8Dec with
          | some names => csvByName nt names r
          | none => csvByPosition nt r) = some ss ↔ List.Forall₂ (RecordReads nt names) rows ss := by
  rw [List.map_cons]
  dsimp only
  rw [decode_rowBytes, mapM_iff, List.forall₂_map_left_iff]
  have : ∀ (r : Row) (s : MSample), (csvRecord (rowBytes names).length (rowBytes r) >>= fun r => csvByName nt names r) = some s ↔ RecordReads nt names r s := by
    intro r s
    rw [get_bind]
    constructor
    · rintro ⟨r', h1, h2⟩
      obtain ⟨e1, e2⟩ := csvRecord_some.1 h1
      have : r = r' := by
        have a := decode_rowBytes r
        rw [e1, decode_rowBytes] at a
        exact (Option.some.inj a).symm
      subst this
      exact (byName_iff nt names r (by rw [e2, rowBytes_length]) s).1 h2
    · intro h
      exact ⟨r, csvRecord_some.2 ⟨rfl, by rw [h.1, rowBytes_length]⟩, (byName_iff nt names r h.1 s).2 h⟩
  constructor
  · exact fun h => h.imp fun r s hrs => (this r s).1 hrs
  · exact fun h => h.imp fun r s hrs => (this r s).2 hrs

/-- **C95, reading.** csv-compressor reads a CSV file as the samples of its columns `timestamp` and `value`, wherever they stand and whatever other columns there are,
one sample per record in file order; it refuses the file exactly when a record is too long or too short or has a field in these columns that does not
parse, or when a column is missing or repeated (and there is any record). -/
theorem C95_reads (nt : NumText) {file : Bytes} {text : List Char} (ht : HoldsText file text) {names : Row} {rows : List Row} (h : CsvText (names :: rows) text)
    (ss : List MSample) : csvDeserialize nt file = some ss ↔ List.Forall₂ (RecordReads nt names) rows ss := by
  unfold csvDeserialize
  rw [C94_reads ht h]
  exact deserialize_iff nt names rows ss

/-- C95: records must be text. A file with a record that is not UTF-8 is refused as a whole. -/
theorem C95_bad_record (nt : NumText) (file : Bytes) (header : BRow) (rows : List BRow) (h : csvRows file = header :: rows) (b : BRow) (hb : b ∈ rows)
    (hbad : BadText b) : csvDeserialize nt file = none := by
  cases hd : csvDeserialize nt file with
  | none => rfl
  | some ss =>
    unfold csvDeserialize at hd
    rw [h] at hd
    dsimp only at hd
    rw [mapM_iff] at hd
    obtain ⟨n, hn, rfl⟩ := List.getElem_of_mem hb
    have := List.Forall₂.get hd (i := n) hn (by rw [← hd.length_eq]; exact hn)
    obtain ⟨r, hr, _⟩ := get_bind.1 this
    have := csvRecord_none (w := header.length).2 (Or.inr hbad)
    rw [List.get_eq_getElem] at hr
    rw [hr] at this; cases this

/-- C95: but a header that is not UTF-8 is not refused: the names are then ignored and the first two columns are taken, whatever they are. -/
theorem C95_refuted_bad_header (nt : NumText) (file : Bytes) (header : BRow) (rows : List Row) (h : csvRows file = header :: rows.map rowBytes) (hbad : BadText header)
    (ss : List MSample) (hr : List.Forall₂ (fun (r : Row) (s : MSample) => r.length = header.length ∧
      (∃ f, r[0]? = some f ∧ nt.parseInt f = some s.timestamp) ∧ ∃ f, r[1]? = some f ∧ nt.parseFloat f = some s.value) rows ss) :
    csvDeserialize nt file = some ss := by
  unfold csvDeserialize
  rw [h]
  dsimp only
  rw [(decode_bad header).2 hbad, mapM_iff, List.forall₂_map_left_iff]
  refine hr.imp ?_
  rintro r s ⟨h1, ⟨f, f1, f2⟩, ⟨g, g1, g2⟩⟩
  exact get_bind.2 ⟨r, csvRecord_some.2 ⟨rfl, h1⟩, get_bind.2 ⟨s.timestamp, get_bind.2 ⟨f, f1, f2⟩, get_bind.2 ⟨s.value, get_bind.2 ⟨g, g1, g2⟩, rfl⟩⟩⟩

theorem only_two {a b : List Char} (h : a ≠ b) : OnlyAt [a, b] a 0 ∧ OnlyAt [a, b] b 1 := by
  refine ⟨⟨rfl, fun j hj => ?_⟩, ⟨rfl, fun j hj => ?_⟩⟩
  · rcases j with _ | _ | j
    · rfl
    · exact absurd (Option.some.inj hj).symm h
    · cases hj
  · rcases j with _ | _ | j
    · exact absurd (Option.some.inj hj) h
    · rfl
    · cases hj

/-- **C95.** The CSV file csv-compressor writes reads back, by its own reader, as the samples written: any number of samples, any 64-bit timestamps, any values but NaN. -/
theorem C95_csv_roundtrip (nt : NumText) (hn : nt.Lawful) (ss : List MSample) (ht : ∀ s ∈ ss, InI64 s.timestamp) (hv : ∀ s ∈ ss, s.value.isNaN = false) :
    csvDeserialize nt (csvSerialize nt ss) = some ss := by
  by_cases h0 : ss = []
  · subst h0; rfl
  unfold csvSerialize
  rw [if_neg h0]
  have h1 := serialized_text hn ss
  have htext : CsvText (["timestamp".toList, "value".toList] :: ss.map fun s => [nt.showInt s.timestamp, nt.showFloat s.value])
      ("timestamp,value\n".toList ++ ss.flatMap (csvLine nt)) :=
    .row (s := "timestamp,value".toList) (c := '\n')
      (.cons (s := "timestamp".toList) (t := "value".toList) (.bare (by decide) (by decide) (by decide) (by decide)) (.one (.bare (by decide) (by decide) (by decide) (by decide))))
      (by decide) (.inl rfl) h1
  have hasc : HoldsText (textBytes ("timestamp,value\n".toList ++ ss.flatMap (csvLine nt))) ("timestamp,value\n".toList ++ ss.flatMap (csvLine nt)) :=
    .inr ⟨rfl, by
      show some 't' ≠ _
      decide⟩
  rw [C95_reads nt hasc htext, List.forall₂_map_left_iff, List.forall₂_same]
  intro s hs
  have hne : "timestamp".toList ≠ "value".toList := by decide
  exact ⟨rfl, 0, 1, (only_two hne).1, (only_two hne).2, ⟨_, rfl, hn.int_back _ (ht s hs)⟩, ⟨_, rfl, hn.float_back _ (hv s hs)⟩⟩

/-- C95 for whole runs: a CSV file with regularly spaced samples of one day, compressed and uncompressed by csv-compressor, gives a CSV file that its own reader
accepts again: as many samples as before, at the seconds of the day of the originals, with the values the compressed file holds (unless one of these is NaN). -/
theorem C95_files (env : CsvEnv) (nt : NumText) (hnt : nt.Lawful) (hrd : env.readCsv = csvDeserialize nt) (hwr : env.writeCsv = csvSerialize nt)
    (hE : env.E.Lawful) (a b : CsvArgs) (ha : a.comp.Valid) (fs : Fs) (input : FPath) (ss : List MSample)
    (hu : a.uncompress = false) (hnc : a.noCompression = false) (hov : a.outputVsri = true) (hub : b.uncompress = true)
    (hf : fs input = some (csvSerialize nt ss)) (hts : ∀ s ∈ ss, InI64 s.timestamp)
    (t0 step : Int) (h0 : 0 ≤ t0) (hm : 0 < step) (hn : 2 ≤ ss.length) (hlast : t0 + step * ((ss.length : Int) - 1) < 86400)
    (htimes : ss.map (fun s => daySecond s.timestamp) = regular t0 step ss.length)
    (hvalid : ∀ s ∈ ss, env.valid (s.timestamp.tdiv 1000) = true) (hfin : ∀ s ∈ ss, s.value.isFinite = true) :
    ∃ fs1 bro, csvRun env a fs input = (fs1, .ok ()) ∧ fs1 ((a.base input).withExt "bro") = some bro ∧
      (bro.length < 2 ^ 64 → ∃ fs2 csv d, csvRun env b fs1 ((a.base input).withExt "bro") = (fs2, .ok ()) ∧
        fs2 ((b.base ((a.base input).withExt "bro")).withExt "csv") = some csv ∧ decompressData env.E bro = .ok d ∧
        ((∀ x ∈ d, x.isNaN = false) → ∃ out, csvDeserialize nt csv = some out ∧ out.map (·.value) = d ∧
          out.map (·.timestamp) = ss.map (fun s => daySecond s.timestamp))) := by
  have hr : env.readCsv (csvSerialize nt ss) = some ss := by
    rw [hrd]; exact C95_csv_roundtrip nt hnt ss hts fun s hs => FP.isFinite_not_nan (hfin s hs)
  obtain ⟨fs1, bro, h1, h2, h3⟩ := C72_round_trip_regular env hE a b ha fs input _ ss hu hnc hov hub hf hr t0 step h0 hm hn hlast htimes hvalid hfin
  refine ⟨fs1, bro, h1, h2, fun hl => ?_⟩
  obtain ⟨fs2, out, k1, k2, k3, -, k5⟩ := h3 hl
  refine ⟨fs2, _, _, k1, k2, k5, fun hd => ⟨out, ?_, rfl, k3⟩⟩
  rw [hwr]
  refine C95_csv_roundtrip nt hnt out (fun s hs => ?_) fun s hs => hd _ (List.mem_map.2 ⟨s, hs, rfl⟩)
  have hm : s.timestamp ∈ ss.map fun s => daySecond s.timestamp := k3 ▸ List.mem_map.2 ⟨s, hs, rfl⟩
  obtain ⟨s', -, e⟩ := List.mem_map.1 hm
  unfold daySecond at e
  unfold InI64; omega

/-- C95: without samples not even the header is written; the empty file reads as no samples. -/
theorem C95_empty (nt : NumText) : csvSerialize nt [] = [] ∧ csvDeserialize nt [] = some [] := ⟨rfl, rfl⟩

/-- A writer and reader of numbers that meets `NumText.Lawful`: unary numbers, floats by their bits. -/
def unaryText : NumText where
  showInt n := (if n < 0 then ['-'] else []) ++ List.replicate n.natAbs '1'
  parseInt s := some (if s.head? = some '-' then -((s.length : Int) - 1) else s.length)
  showFloat x := List.replicate x.toBits '1'
  parseFloat s := some (FP.ofBits s.length)

theorem unaryText_lawful : unaryText.Lawful where
  int_back n _ := by
    unfold unaryText
    dsimp only
    by_cases h : n < 0
    · rw [if_pos h]; simp [abs_of_neg h]
    · rw [if_neg h, List.nil_append]
      have : (List.replicate n.natAbs '1').head? ≠ some '-' := by
        cases n.natAbs <;> simp [List.replicate_succ]
      rw [if_neg this, List.length_replicate]; congr 1; omega
  float_back x _ := by
    show some (FP.ofBits (List.replicate x.toBits '1').length) = some x
    rw [List.length_replicate, FP.ofBits_toBits]
  int_chars n c hc := by
    have : c = '-' ∨ c = '1' := by
      unfold unaryText at hc
      dsimp only at hc
      rcases List.mem_append.1 hc with hc | hc
      · split at hc <;> simp_all
      · exact .inr (List.eq_of_mem_replicate hc)
    rcases this with rfl | rfl <;> decide
  float_chars x c hc := by
    have : c = '1' := List.eq_of_mem_replicate hc
    subst this; decide

/-- The hypotheses of `C95_refuted_bad_header`: the header is the byte FF and `a`, one record follows. -/
example : csvRows [0xFF, 0x2C, 0x61, 0x0A, 0x31, 0x2C, 0x31] = [[0xFF], [0x61]] :: [[['1'], ['1']]].map rowBytes ∧ BadText [[0xFF], [0x61]] ∧
    csvDeserialize unaryText [0xFF, 0x2C, 0x61, 0x0A, 0x31, 0x2C, 0x31] = some [⟨1, FP.ofBits 1⟩] := by
  have h1 : csvRows [0xFF, 0x2C, 0x61, 0x0A, 0x31, 0x2C, 0x31] = [[0xFF], [0x61]] :: [[['1'], ['1']]].map rowBytes := by decide +kernel
  have h2 : BadText [[0xFF], [0x61]] := (decode_bad _).1 (by decide +kernel)
  exact ⟨h1, h2, C95_refuted_bad_header unaryText _ _ _ h1 h2 _ (.cons ⟨rfl, ⟨['1'], rfl, rfl⟩, ⟨['1'], rfl, rfl⟩⟩ .nil)⟩

/-- C93 on a concrete file: `--fields=t,v` on a table with three columns and a quoted field, `parse` accepting the digits 1 and 2. -/
def parseOneTwo (s : List Char) : Option F64 := if s = ['1'] then some (F64.lit 1) else if s = ['2'] then some (F64.lit 2) else none
example : ∃ rows header, CsvText (header :: rows) "x,v,t\na,1,b\nc,\"2\",d\n".toList ∧
    HoldsText ([0xEF, 0xBB, 0xBF] ++ "x,v,t\na,1,b\nc,\"2\",d\n".toUTF8.toList) "x,v,t\na,1,b\nc,\"2\",d\n".toList ∧ ['t'] ∈ header ∧
    ColumnReads parseOneTwo header rows ['v'] [F64.lit 1, F64.lit 2] := by
  have hb : ∀ c : Char, c ≠ '"' → c ≠ ',' → c ≠ '\n' → c ≠ '\r' → WrittenField [c] [c] := fun c h1 h2 h3 h4 =>
    .bare (by simpa using h1) (by simpa using h2.symm) (by simpa using h3.symm) (by simpa using h4.symm)
  refine ⟨[[['a'], ['1'], ['b']], [['c'], ['2'], ['d']]], [['x'], ['v'], ['t']],
    .row (s := "x,v,t".toList) (c := '\n') (t := "a,1,b\nc,\"2\",d\n".toList)
      (.cons (hb 'x' (by decide) (by decide) (by decide) (by decide)) (.cons (hb 'v' (by decide) (by decide) (by decide) (by decide)) (.one (hb 't' (by decide) (by decide) (by decide) (by decide)))))
      (by decide) (.inl rfl)
      (.row (s := "a,1,b".toList) (c := '\n') (t := "c,\"2\",d\n".toList)
        (.cons (hb 'a' (by decide) (by decide) (by decide) (by decide)) (.cons (hb '1' (by decide) (by decide) (by decide) (by decide)) (.one (hb 'b' (by decide) (by decide) (by decide) (by decide)))))
        (by decide) (.inl rfl)
        (.row (s := "c,\"2\",d".toList) (c := '\n') (t := [])
          (.cons (hb 'c' (by decide) (by decide) (by decide) (by decide)) (.cons (.quoted ['2']) (.one (hb 'd' (by decide) (by decide) (by decide) (by decide)))))
          (by decide) (.inl rfl) .nil)), .inl (by decide +kernel), by simp, 1, ⟨rfl, by decide⟩, ?_⟩
  exact .cons ⟨rfl, ['1'], rfl, rfl⟩ (.cons ⟨rfl, ['2'], rfl, rfl⟩ .nil)

end Atsc
