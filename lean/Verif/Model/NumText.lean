import Verif.Model.CsvText
import Verif.Model.VsriFile
/- How numbers are read from and written to CSV files: a concrete value for the parameters `Env.parse` (`str::parse::<f64>`, /repo/atsc/src/csv.rs:63,88) and
`NumText` (serde through the `csv` crate, /repo/csv-compressor/src/csv.rs:26-58).  None of this is in the repository: it is the behaviour of Rust's `core::num::dec2flt`, of `i64::from_str_radix`,
of the integer deserialiser of `csv` 1.3 and of `ryu` 1.0, written down function by function. -/
namespace Atsc

/-! ### Reading -/

/-- The exponent digits of `parse_scientific` (core::num::dec2flt::parse): an optional sign and at least one digit.
(The library stops accumulating beyond 655359, which differs only for numbers with more than half a million digits before or after the point.) -/
def readInt (cs : List Char) : Option Int :=
  let digits (ds : List Char) (sign : Int) : Option Int :=
    if ds = [] ∨ ¬ ds.all Char.isDigit then none else some (sign * (Nat.ofDigitChars 10 ds 0 : Int))
  match cs with
  | '-' :: ds => digits ds (-1)
  | '+' :: ds => digits ds 1
  | ds => digits ds 1

/-- What may follow the digits: nothing or an exponent. -/
def readExp : List Char → Option Int
  | [] => some 0
  | c :: r => if c = 'e' ∨ c = 'E' then readInt r else none

/-- What may follow the digits before the point: the point and more digits. -/
def readFrac : List Char → List Char × List Char
  | '.' :: t => (t.takeWhile Char.isDigit, t.dropWhile Char.isDigit)
  | r => ([], r)

/-- `parse_number` (core::num::dec2flt::parse): digits, an optional point among them, an optional exponent; the result is `m * 10^e`. -/
def readDecimal (s : List Char) : Option (Nat × Int) :=
  let a := s.takeWhile Char.isDigit
  let f := readFrac (s.dropWhile Char.isDigit)
  if a = [] ∧ f.1 = [] then none
  else match readExp f.2 with
    | none => none
    | some e => some (Nat.ofDigitChars 10 (a ++ f.1) 0, e - f.1.length)

/-- The double nearest to `± m * 10^e`, ties to even, overflow to infinity (`dec2flt` is correctly rounded). -/
def decRound (neg : Bool) (m : Nat) (e : Int) : F64 :=
  if 0 ≤ e then FP.ofRound neg (m * 10 ^ e.toNat * 2 ^ FP.qexp 52 11) 1
  else FP.ofRound neg (m * 2 ^ FP.qexp 52 11) (10 ^ (-e).toNat)

/-- `dec2flt` after the sign; `parse_inf_nan` ignores case. -/
def parseUnsigned (neg : Bool) (s : List Char) : Option F64 :=
  match readDecimal s with
  | some (m, e) => some (decRound neg m e)
  | none =>
    if s.map Char.toLower = "nan".toList then some ⟨neg, FP.nan.mag⟩
    else if s.map Char.toLower = "inf".toList ∨ s.map Char.toLower = "infinity".toList then some (FP.inf neg)
    else none

/-- `str::parse::<f64>` (core::num::dec2flt). -/
def parseF64 : List Char → Option F64
  | [] => none
  | c :: r => if c = '-' then parseUnsigned true r else if c = '+' then parseUnsigned false r else parseUnsigned false (c :: r)

/-- The range of `i64`. -/
def InI64 (n : Int) : Prop := -2 ^ 63 ≤ n ∧ n < 2 ^ 63

instance (n : Int) : Decidable (InI64 n) := inferInstanceAs (Decidable (_ ∧ _))

/-- A hexadecimal digit. -/
def hexDigit (c : Char) : Option Nat :=
  if '0' ≤ c ∧ c ≤ '9' then some (c.toNat - 48)
  else if 'a' ≤ c ∧ c ≤ 'f' then some (c.toNat - 87)
  else if 'A' ≤ c ∧ c ≤ 'F' then some (c.toNat - 55)
  else none

/-- Hexadecimal digits. -/
def hexDigits : Nat → List Char → Option Nat
  | acc, [] => some acc
  | acc, c :: r =>
    match hexDigit c with
    | none => none
    | some d => hexDigits (16 * acc + d) r

/-- `i64::from_str_radix(_, 16)` without the range: an optional sign and at least one digit. -/
def readHex : List Char → Option Int
  | [] => none
  | '-' :: r => if r = [] then none else (hexDigits 0 r).map fun (k : Nat) => -(k : Int)
  | '+' :: r => if r = [] then none else (hexDigits 0 r).map fun (k : Nat) => (k : Int)
  | r => (hexDigits 0 r).map fun (k : Nat) => (k : Int)

/-- An `i64` or an error. -/
def fitI64 (o : Option Int) : Option Int :=
  match o with
  | some n => if InI64 n then some n else none
  | none => none

/-- `deserialize_i64` of the `csv` crate: after `0x` hexadecimal, otherwise `str::parse::<i64>`. -/
def parseI64 : List Char → Option Int
  | '0' :: 'x' :: r => fitI64 (readHex r)
  | s => fitI64 (readInt s)

/-! ### Writing -/

/-- The integer part of `x * 10^-k`, where `x` is `a` smallest subnormals. -/
def decFloor (a : Nat) (k : Int) : Nat :=
  if 0 ≤ k then a / (2 ^ FP.qexp 52 11 * 10 ^ k.toNat) else a * 10 ^ (-k).toNat / 2 ^ FP.qexp 52 11

/-- Is `x * 10^-k` nearer to the next integer than to the integer part (on a tie: is the integer part odd)? -/
def decUp (a : Nat) (k : Int) : Bool :=
  let num := if 0 ≤ k then a else a * 10 ^ (-k).toNat
  let den := if 0 ≤ k then 2 ^ FP.qexp 52 11 * 10 ^ k.toNat else 2 ^ FP.qexp 52 11
  if 2 * num = (2 * (num / den) + 1) * den then decide (num / den % 2 = 1) else decide ((2 * (num / den) + 1) * den < 2 * num)

/-- The multiples of `10^k` next to `x`, the nearer one first. -/
def decNear (a : Nat) (k : Int) : List Nat := if decUp a k then [decFloor a k + 1, decFloor a k] else [decFloor a k, decFloor a k + 1]

/-- The nearest multiple of `10^k` that reads as `x`, if there is one. -/
def ryuAt (x : F64) (k : Int) : Option (Nat × Int) := ((decNear x.absVal k).find? fun m => decRound x.sign m k = x).map fun m => (m, k)

/-- `ryu::d2d`: the largest power of ten (from 308 down to -324) with a multiple that reads as `x`, and the nearest such multiple. -/
def ryuDigits (x : F64) : Nat × Int := ((List.range 633).findSome? fun (i : Nat) => ryuAt x (308 - (i : Int))).getD (0, 0)

/-- `ryu::pretty::format64` for the digits `ds` and the exponent `k`. -/
def ryuPretty (ds : List Char) (k : Int) : List Char :=
  let kk : Int := ds.length + k
  if 0 ≤ k ∧ kk ≤ 16 then ds ++ List.replicate k.toNat '0' ++ ['.', '0']
  else if 0 < kk ∧ kk ≤ 16 then ds.take kk.toNat ++ '.' :: ds.drop kk.toNat
  else if -5 < kk ∧ kk ≤ 0 then '0' :: '.' :: (List.replicate (-kk).toNat '0' ++ ds)
  else if ds.length = 1 then ds ++ 'e' :: showI32 (kk - 1)
  else ds.take 1 ++ '.' :: (ds.drop 1 ++ 'e' :: showI32 (kk - 1))

/-- `ryu::Buffer::format`: what `serialize_f64` of the `csv` crate writes. -/
def ryuText (x : F64) : List Char :=
  if x.isNaN then "NaN".toList
  else (if x.sign then ['-'] else []) ++
    (if x.isInf then "inf".toList
    else if x.absVal = 0 then "0.0".toList
    else ryuPretty (Nat.toDigits 10 (ryuDigits x).1) (ryuDigits x).2)

/-- The numbers of csv-compressor's CSV files: `serde`, `csv`, `itoa` and `ryu`. -/
def csvNumText : NumText where
  showInt := showI32
  parseInt := parseI64
  showFloat := ryuText
  parseFloat := parseF64

end Atsc
