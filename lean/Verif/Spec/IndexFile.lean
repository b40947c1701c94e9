import Mathlib.Data.List.Forall2
import Verif.Model.VsriFile
/- Specification for C105: which texts are index files.  Nothing here refers to how the program reads them. -/
namespace Atsc

/-- The code points with the Unicode property `White_Space`. -/
def whiteSpace : List Nat := [9, 10, 11, 12, 13, 0x20, 0x85, 0xA0, 0x1680, 0x2000, 0x2001, 0x2002, 0x2003, 0x2004, 0x2005, 0x2006, 0x2007, 0x2008, 0x2009, 0x200A,
  0x2028, 0x2029, 0x202F, 0x205F, 0x3000]

/-- Nothing but white space. -/
def Blank (cs : List Char) : Prop := ∀ c ∈ cs, c.toNat ∈ whiteSpace

/-- A decimal notation of an integer: digits, with an optional sign. -/
def ReadsInt (cs : List Char) (n : Int) : Prop :=
  ∃ ds : List Char, ds ≠ [] ∧ (∀ c ∈ ds, c.isDigit = true) ∧
    ((cs = ds ∨ cs = '+' :: ds) ∧ n = (Nat.ofDigitChars 10 ds 0 : Int) ∨ cs = '-' :: ds ∧ n = -(Nat.ofDigitChars 10 ds 0 : Int))

/-- A field: the notation of a 32-bit integer, white space around it allowed. -/
def HoldsInt (field : List Char) (n : Int) : Prop :=
  -2147483648 ≤ n ∧ n ≤ 2147483647 ∧ ∃ before num after, field = before ++ num ++ after ∧ Blank before ∧ Blank after ∧ ReadsInt num n

/-- The lines of a text: each ended by a line feed or by carriage return and line feed; the last one may be without. -/
inductive TextLines : List Char → List (List Char) → Prop
  | nil : TextLines [] []
  | last {l : List Char} : l ≠ [] → '\n' ∉ l → TextLines l [l]
  | lf {l t : List Char} {ls : List (List Char)} : '\n' ∉ l → l.getLast? ≠ some '\r' → TextLines t ls → TextLines (l ++ '\n' :: t) (l :: ls)
  | crlf {l t : List Char} {ls : List (List Char)} : '\n' ∉ l → TextLines t ls → TextLines (l ++ '\r' :: '\n' :: t) (l :: ls)

/-- The line of a segment: four fields separated by commas. -/
def SegmentLine (line : List Char) (s : Seg) : Prop :=
  ∃ a b c d, line = a ++ ',' :: (b ++ ',' :: (c ++ ',' :: d)) ∧ HoldsInt a s.m ∧ HoldsInt b s.x0 ∧ HoldsInt c s.y0 ∧ HoldsInt d s.n

/-- The lines of an index file: the two extremes, then the segments; missing extremes are zero. -/
def IndexLines : List (List Char) → Vsri → Prop
  | [], v => v.minTs = 0 ∧ v.maxTs = 0 ∧ v.segs = []
  | [a], v => HoldsInt a v.minTs ∧ v.maxTs = 0 ∧ v.segs = []
  | a :: b :: ls, v => HoldsInt a v.minTs ∧ HoldsInt b v.maxTs ∧ List.Forall₂ SegmentLine ls v.segs

end Atsc
