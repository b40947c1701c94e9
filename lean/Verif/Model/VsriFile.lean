import Verif.Model.Vsri
import Verif.Model.Utf8
/- Model of the index file: `flush_to`, `load` and `get_sample_location` of /repo/vsri/src/lib.rs, with the parts of the Rust standard library
they rest on (`Display for i32`, `str::parse::<i32>`, `str::split`, `str::trim`, `BufRead::lines`, UTF-8).

`flush` gives the characters written and `textBytes` their bytes; `loadFile` reads bytes, `load` is the same on the characters of a file
that is UTF-8 (`loadFile_text`).  I/O errors are in `Io.lean`. -/
namespace Atsc

/-- `Display for i32`: decimal digits, with a minus sign when negative. -/
def showI32 (a : Int) : List Char := if a < 0 then '-' :: Nat.toDigits 10 (-a).toNat else Nat.toDigits 10 a.toNat

/-- `str::parse::<i32>` : an optional sign and at least one decimal digit, the value in range.  (The library checks the range after each
digit; because the accumulated value only moves away from zero this is the same as checking it at the end.) -/
def parseI32 (cs : List Char) : Option Int :=
  let digits (ds : List Char) (sign : Int) : Option Int :=
    if ds = [] ∨ ¬ ds.all Char.isDigit then none
    else if InI32 (sign * (Nat.ofDigitChars 10 ds 0 : Int)) then some (sign * (Nat.ofDigitChars 10 ds 0 : Int)) else none
  match cs with
  | '-' :: ds => digits ds (-1)
  | '+' :: ds => digits ds 1
  | ds => digits ds 1

/-- `str::split(c)`. -/
def splitAtChar (c : Char) : List Char → List (List Char)
  | [] => [[]]
  | x :: xs =>
    if x = c then [] :: splitAtChar c xs
    else match splitAtChar c xs with
      | [] => [[x]]
      | y :: ys => (x :: y) :: ys

/-- White space removed by `str::trim`: the characters with the Unicode property `White_Space`. -/
def isSpaceChar (c : Char) : Bool :=
  (9 ≤ c.toNat ∧ c.toNat ≤ 13) ∨ c.toNat = 0x20 ∨ c.toNat = 0x85 ∨ c.toNat = 0xA0 ∨ c.toNat = 0x1680 ∨ (0x2000 ≤ c.toNat ∧ c.toNat ≤ 0x200A) ∨
    c.toNat = 0x2028 ∨ c.toNat = 0x2029 ∨ c.toNat = 0x202F ∨ c.toNat = 0x205F ∨ c.toNat = 0x3000

/-- `str::trim`. -/
def trimChars (cs : List Char) : List Char := ((cs.dropWhile isSpaceChar).reverse.dropWhile isSpaceChar).reverse

/-- Removal of the carriage return at the end of a line by `BufRead::lines`. -/
def stripCr (cs : List Char) : List Char := if cs.getLast? = some '\r' then cs.dropLast else cs

/-- `BufRead::lines`: the pieces between line feeds, without an empty last piece; only a piece followed by a line feed loses its carriage return. -/
def fileLines (cs : List Char) : List (List Char) :=
  let ps := splitAtChar '\n' cs
  ps.dropLast.map stripCr ++ (if ps.getLastD [] = [] then [] else [ps.getLastD []])

namespace Vsri

/-- One segment line of `flush_to` (lib.rs:444-448): the four fields separated by commas. -/
def segLine (s : Seg) : List Char := showI32 s.m ++ ',' :: (showI32 s.x0 ++ ',' :: (showI32 s.y0 ++ ',' :: showI32 s.n))

/-- `flush_to` (lib.rs:434-453): the content of the file written. -/
def flush (v : Vsri) : List Char :=
  showI32 v.minTs ++ '\n' :: (showI32 v.maxTs ++ '\n' :: (v.segs.flatMap fun s => segLine s ++ ['\n']))

/-- `line.trim().parse::<i32>().unwrap()`. -/
def parseField (cs : List Char) : Except Panic Int :=
  match parseI32 (trimChars cs) with
  | some a => .ok a
  | none => .error .unwrap

/-- A segment line of `load` (lib.rs:475-480): `try_into` to four fields panics when there are more or fewer. -/
def parseSeg (line : List Char) : Except Panic Seg := do
  let vs ← (splitAtChar ',' line).mapM parseField
  match vs with
  | [m, x0, y0, n] => .ok ⟨m, x0, y0, n⟩
  | _ => .error .unwrap

/-- `load` (lib.rs:457-491) of a readable file, on its characters: the first two lines are the extremes (0 when missing), the others segments. -/
def load (content : List Char) : Except Panic Vsri :=
  match fileLines content with
  | [] => .ok { minTs := 0, maxTs := 0, segs := [] }
  | [a] => do .ok { minTs := ← parseField a, maxTs := 0, segs := [] }
  | a :: b :: ls => do
    let mn ← parseField a
    let mx ← parseField b
    let ss ← ls.mapM parseSeg
    .ok { minTs := mn, maxTs := mx, segs := ss }

end Vsri

/-- The pieces between line feeds, without an empty last piece; a piece followed by a line feed loses its carriage return (`BufRead::lines`
before the check for UTF-8). -/
def byteLines : Bytes → Bytes → List Bytes
  | acc, [] => if acc = [] then [] else [acc]
  | acc, b :: bs =>
    if b = 10 then (if acc.getLast? = some 13 then acc.dropLast else acc) :: byteLines [] bs
    else byteLines (acc ++ [b]) bs

namespace Vsri

/-- The loop of `load` (lib.rs:466-484) at line `i`: `none` is the `io::Error` of a line that is not UTF-8. -/
def loadLines (i : Nat) (v : Vsri) : List Bytes → Except Panic (Option Vsri)
  | [] => .ok (some v)
  | l :: ls =>
    match utf8Dec l with
    | none => .ok none
    | some line =>
      if i = 1 then do
        let mn ← parseField line
        loadLines (i + 1) { v with minTs := mn } ls
      else if i = 2 then do
        let mx ← parseField line
        loadLines (i + 1) { v with maxTs := mx } ls
      else do
        let s ← parseSeg line
        loadLines (i + 1) { v with segs := v.segs ++ [s] } ls

/-- `load` (lib.rs:457-491) of a readable file. -/
def loadFile (content : Bytes) : Except Panic (Option Vsri) := loadLines 1 { minTs := 0, maxTs := 0, segs := [] } (byteLines [] content)

/-- `Vsri::load(..)` followed by a panic on its error, on a readable file. -/
def loadOrPanic (content : Bytes) : Except Panic Vsri :=
  match loadFile content with
  | .error e => .error e
  | .ok none => .error .unwrap
  | .ok (some v) => .ok v

/-- `get_sample_location` (lib.rs:125-134); `none` as the file means that it cannot be opened. -/
def sampleLocation (p : Profile) (file : Option Bytes) (y : Int) : Except Panic (Option Int) :=
  match file with
  | none => .ok none
  | some content => do
    match ← loadFile content with
    | none => .ok none
    | some v => if v.min ≤ y ∧ y ≤ v.max then v.getSample p y else .ok none

end Vsri
end Atsc
