import Verif.Model.CsvCompressor
/- Model of what the `csv` crate (1.3.1, csv-core 0.1.11) does for this code base: reading with the default settings of `ReaderBuilder`
(/repo/atsc/src/csv.rs:107-118, /repo/csv-compressor/src/csv.rs:43-47) and writing with those of `Writer` (/repo/csv-compressor/src/csv.rs:50-58).
The crate is not part of the repository; this is its documented behaviour: comma as delimiter, double quotes with doubling, records ended by `\r`, `\n` or
`\r\n`, empty lines skipped, no trimming, no comments.  A byte order mark is dropped.  Everywhere else in the model the crate is a
parameter (`Env.rows`, `CsvEnv.readCsv`, `CsvEnv.writeCsv`); here are concrete values for these parameters. -/
namespace Atsc

/-- Where the reader is: before a record, before a field, inside an unquoted field, inside quotes, after a quote inside quotes. -/
inductive CsvMode where
  | record | field | bare | quoted | quote
  deriving DecidableEq, Repr

/-- The reader's state: mode, bytes of the current field, complete fields of the current record. -/
structure CsvTok where
  mode : CsvMode
  fld : Bytes
  row : BRow

/-- Record terminators. -/
def isEol (c : UInt8) : Bool := c = 0x0A ∨ c = 0x0D

/-- The state before a record. -/
def CsvTok.init : CsvTok := ⟨.record, [], []⟩

/-- A byte outside quotes: the delimiter (comma), a terminator, or one more byte of the field. -/
def CsvTok.plain (t : CsvTok) (c : UInt8) : CsvTok × List BRow :=
  if c = 0x2C then (⟨.field, [], t.row ++ [t.fld]⟩, [])
  else if isEol c then (.init, [t.row ++ [t.fld]])
  else (⟨.bare, t.fld ++ [c], t.row⟩, [])

/-- One byte (the transitions of csv-core; `\n` after `\r` is skipped like any terminator before a record). -/
def CsvTok.step (t : CsvTok) (c : UInt8) : CsvTok × List BRow :=
  match t.mode with
  | .record => if isEol c then (t, []) else if c = 0x22 then (⟨.quoted, [], t.row⟩, []) else t.plain c
  | .field => if c = 0x22 then (⟨.quoted, [], t.row⟩, []) else t.plain c
  | .bare => t.plain c
  | .quoted => if c = 0x22 then (⟨.quote, t.fld, t.row⟩, []) else (⟨.quoted, t.fld ++ [c], t.row⟩, [])
  | .quote => if c = 0x22 then (⟨.quoted, t.fld ++ [c], t.row⟩, []) else t.plain c

/-- At the end of the file an unfinished record is complete. -/
def CsvTok.final (t : CsvTok) : List BRow := if t.mode = .record then [] else [t.row ++ [t.fld]]

/-- The records from state `t` on. -/
def csvTokens (t : CsvTok) : Bytes → List BRow
  | [] => t.final
  | c :: cs => (t.step c).2 ++ csvTokens (t.step c).1 cs

/-- The byte order mark of UTF-8, which csv-core drops at the beginning of its input. -/
def bom : Bytes := [0xEF, 0xBB, 0xBF]

/-- `strip_utf8_bom` of csv-core. -/
def stripBom (bs : Bytes) : Bytes := if bs.take 3 = bom then bs.drop 3 else bs

/-- The rows of a file: a value for `Env.rows`. -/
def csvRows (content : Bytes) : List BRow := csvTokens .init (stripBom content)

/-- Text of numbers: `i64`/`f64` formatting by `itoa`/`ryu` and parsing by the deserialiser. -/
structure NumText where
  showInt : Int → List Char
  parseInt : List Char → Option Int
  showFloat : F64 → List Char
  parseFloat : List Char → Option F64

/-- `#[derive(Deserialize)] struct Sample` (/repo/csv-compressor/src/csv.rs:26-30) from a record, the header being UTF-8: the fields are found by their names,
other columns are ignored; a repeated name, a missing one or a field that does not parse is an error. -/
def csvByName (nt : NumText) (names : Row) (r : Row) : Option MSample :=
  if names.count "timestamp".toList = 1 ∧ names.count "value".toList = 1 then do
    let i ← names.findIdx? (· == "timestamp".toList)
    let j ← names.findIdx? (· == "value".toList)
    let t ← r[i]? >>= nt.parseInt
    let v ← r[j]? >>= nt.parseFloat
    some ⟨t, v⟩
  else none

/-- The same when the header is not UTF-8: the crate then forgets the header and takes the fields by position. -/
def csvByPosition (nt : NumText) (r : Row) : Option MSample := do
  let t ← r[0]? >>= nt.parseInt
  let v ← r[1]? >>= nt.parseFloat
  some ⟨t, v⟩

/-- `read_samples_from_csv_file` (/repo/csv-compressor/src/csv.rs:43-47): the first record that has another number of fields than the header, is not UTF-8
or does not parse makes the whole result an error. -/
def csvDeserialize (nt : NumText) (content : Bytes) : Option (List MSample) :=
  match csvRows content with
  | [] => some []
  | h :: rows => rows.mapM fun b => do
      let r ← csvRecord h.length b
      match h.mapM utf8Dec with
      | some names => csvByName nt names r
      | none => csvByPosition nt r

/-- One record written by `writer.serialize` (numbers need no quotes). -/
def csvLine (nt : NumText) (s : MSample) : List Char := nt.showInt s.timestamp ++ ',' :: (nt.showFloat s.value ++ ['\n'])

/-- `write_samples_to_csv_file` (/repo/csv-compressor/src/csv.rs:50-58): the header is written before the first record, so not at all without records. -/
def csvSerialize (nt : NumText) (ss : List MSample) : Bytes :=
  if ss = [] then [] else textBytes ("timestamp,value\n".toList ++ ss.flatMap (csvLine nt))

end Atsc
