import Verif.Model.Panic
import Verif.Model.Float
import Verif.Model.Utf8
/- Model of /repo/atsc/src/csv.rs.

The `csv` crate is external: it splits the bytes of the file into rows of fields (tokenising and quoting; here `rows` is its result, for a
concrete value see `CsvText.lean`).  What is modelled of it: with `has_headers(true)` the first row is the header; a row whose number of fields differs
from that of the first row of the file is returned as an error (`flexible(false)` is the default), and so is a row with a field that is not UTF-8.
`str::parse::<f64>` is the parameter `parse`. -/
namespace Atsc

/-- `enum Error` (csv.rs:4-23), the variants reachable once the file is open. -/
inductive CsvError where
  | openFileFailed
  | timestampFieldNotFound
  | valueFieldNotFound
  | parsingValueFailed
  | unexpected
  deriving DecidableEq, Repr

/-- The fields of a row as the crate finds them in the file. -/
abbrev BRow := List Bytes

/-- The fields of a row as text. -/
abbrev Row := List (List Char)

/-- `struct Sample` (csv.rs:27-31). -/
structure CsvSample where
  timestamp : Int
  value : F64
  deriving DecidableEq

/-- What the crate's iterator returns for a row when the first row of the file has `w` fields. -/
def csvRecord (w : Nat) (r : BRow) : Option Row := if r.length = w then r.mapM utf8Dec else none

/-- The loop over the records (csv.rs:57-74 and 87-102): `none` is a record the crate rejects, on which `record.unwrap()` panics; `get(i)` beyond the
row panics too; a value that does not parse ends the loop with an error. -/
def csvLoop (parse : List Char → Option F64) (i : Nat) : List (Option Row) → List CsvSample → Except Panic (Except CsvError (List CsvSample))
  | [], acc => .ok (.ok acc)
  | none :: _, _ => .error .unwrap
  | some r :: rs, acc =>
    match r[i]? with
    | none => .error .unwrap
    | some f =>
      match parse f with
      | none => .ok (.error .parsingValueFailed)
      | some v => csvLoop parse i rs (acc ++ [⟨0, v⟩])

/-- `read_samples_with_headers` (csv.rs:36-77) on an existing file whose rows are `rows`. An empty file has an empty header;
`reader.headers()` fails when the header is not UTF-8. -/
def readSamplesWithHeaders (parse : List Char → Option F64) (rows : List BRow) (timeField valueField : List Char) :
    Except Panic (Except CsvError (List CsvSample)) :=
  match (rows.headD []).mapM utf8Dec with
  | none => .ok (.error .unexpected)
  | some headers =>
    match headers.findIdx? (· == timeField) with
    | none => .ok (.error .timestampFieldNotFound)
    | some _ =>
      match headers.findIdx? (· == valueField) with
      | none => .ok (.error .valueFieldNotFound)
      | some i => csvLoop parse i (rows.tail.map (csvRecord (rows.headD []).length)) []

/-- `read_samples` (csv.rs:82-105): no header, field 0. -/
def readSamples (parse : List Char → Option F64) (rows : List BRow) : Except Panic (Except CsvError (List CsvSample)) :=
  csvLoop parse 0 (rows.map (csvRecord (rows.headD []).length)) []

end Atsc
