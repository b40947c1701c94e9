import Verif.Model.Csv
/- What a CSV text is (RFC 4180 with any of the three line ends, blank lines allowed), independently of how it is read. -/
namespace Atsc

/-- A field between double quotes, quotes inside it doubled. -/
def quotedField (f : List Char) : List Char := '"' :: ((f.flatMap fun c => if c = '"' then ['"', '"'] else [c]) ++ ['"'])

/-- `s` is a way to write the field `f`: as it is, if it does not begin with a quote and contains neither comma nor line end; or quoted. -/
inductive WrittenField : List Char → List Char → Prop
  | bare {f : List Char} : f.head? ≠ some '"' → ',' ∉ f → '\n' ∉ f → '\r' ∉ f → WrittenField f f
  | quoted (f : List Char) : WrittenField f (quotedField f)

/-- `s` is a way to write a row: its fields, in order, separated by commas. -/
inductive WrittenRow : Row → List Char → Prop
  | one {f s : List Char} : WrittenField f s → WrittenRow [f] s
  | cons {f s : List Char} {r : Row} {t : List Char} : WrittenField f s → WrittenRow r t → WrittenRow (f :: r) (s ++ ',' :: t)

/-- `t` is a CSV text with the given rows: every row on its own line (of at least one character), the last line end may be missing, blank lines
may stand anywhere.  A line end is `\n` or `\r`; `\r\n` is a line end followed by a blank line. -/
inductive CsvText : List Row → List Char → Prop
  | nil : CsvText [] []
  | blank {rs : List Row} {t : List Char} {c : Char} : c = '\n' ∨ c = '\r' → CsvText rs t → CsvText rs (c :: t)
  | last {r : Row} {s : List Char} : WrittenRow r s → s ≠ [] → CsvText [r] s
  | row {r : Row} {s : List Char} {c : Char} {rs : List Row} {t : List Char} : WrittenRow r s → s ≠ [] → c = '\n' ∨ c = '\r' → CsvText rs t →
      CsvText (r :: rs) (s ++ c :: t)

end Atsc
