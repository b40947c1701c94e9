import Verif.Spec.Float
import Verif.Spec.IndexFile
/- Specification for C106: decimal notations of numbers and the double nearest to a number.  Nothing here refers to how the program reads or writes numbers. -/
namespace Atsc

/-- Only decimal digits. -/
def Digits (ds : List Char) : Prop := ∀ c ∈ ds, c.isDigit = true

/-- An exponent: nothing, or `e` or `E` and an integer. -/
def Exponent (t : List Char) (e : Int) : Prop := (t = [] ∧ e = 0) ∨ ∃ c r, t = c :: r ∧ (c = 'e' ∨ c = 'E') ∧ ReadsInt r e

/-- `t` is an unsigned decimal notation of `v`: digits with an optional point among them (at least one digit), and an optional exponent. -/
def Decimal (t : List Char) (v : ℚ) : Prop :=
  ∃ (whole point frac ex : List Char) (e : Int), t = whole ++ point ++ frac ++ ex ∧ Digits whole ∧ Digits frac ∧
    (point = ['.'] ∨ (point = [] ∧ frac = [])) ∧ whole ++ frac ≠ [] ∧ Exponent ex e ∧
    v = ((Nat.ofDigitChars 10 whole 0 : ℚ) + (Nat.ofDigitChars 10 frac 0 : ℚ) / 10 ^ frac.length) * (10 : ℚ) ^ e

/-- `t` is `body` with a sign; no sign is the sign plus. -/
def Signed (t : List Char) (neg : Bool) (body : List Char) : Prop := (neg = false ∧ (t = body ∨ t = '+' :: body)) ∨ (neg = true ∧ t = '-' :: body)

/-- `±v`. -/
def signedQ (neg : Bool) (v : ℚ) : ℚ := if neg then -v else v

/-- `x` is the double nearest to `±v`, of two equally near ones the one with an even mantissa; from `2^1024 - 2^970` on, half a step above the largest double,
it is infinity.  (So the sign is that of the notation, also for zero.) -/
def Nearest (neg : Bool) (v : ℚ) (x : F64) : Prop :=
  x.sign = neg ∧
    if v < 2 ^ 1024 - 2 ^ 970 then
      x.isFinite = true ∧ ∀ y : F64, y.isFinite = true → |x.val - signedQ neg v| < |y.val - signedQ neg v| ∨
        (|x.val - signedQ neg v| = |y.val - signedQ neg v| ∧ (y.val = x.val ∨ x.mag.val % 2 = 0))
    else x.isInf = true

/-- The words for what is not a number or not finite, in any mix of cases. -/
def Word (w : String) (t : List Char) : Prop := t.map Char.toLower = w.toList

instance (w : String) (t : List Char) : Decidable (Word w t) := inferInstanceAs (Decidable (_ = _))

/-- `t` reads as the double `x`. -/
def ReadsAsFloat (t : List Char) (x : F64) : Prop :=
  ∃ neg body, Signed t neg body ∧
    ((∃ v, Decimal body v ∧ Nearest neg v x) ∨ ((Word "inf" body ∨ Word "infinity" body) ∧ x.sign = neg ∧ x.isInf = true) ∨
      (Word "nan" body ∧ x.sign = neg ∧ x.mag = FP.nan.mag))

/-- `m * 10^k` is the shortest decimal that reads as `x`: no decimal that reads as `x` ends further left; among those that end there it is the nearest to `x`, and of two
equally near ones the even one. -/
def Shortest (x : F64) (m : Nat) (k : Int) : Prop :=
  Nearest x.sign ((m : ℚ) * (10 : ℚ) ^ k) x ∧
    ∀ (m' : Nat) (k' : Int), Nearest x.sign ((m' : ℚ) * (10 : ℚ) ^ k') x → k' ≤ k ∧
      (k' = k → |(m : ℚ) * (10 : ℚ) ^ k - abs x.val| < |(m' : ℚ) * (10 : ℚ) ^ k - abs x.val| ∨
        (|(m : ℚ) * (10 : ℚ) ^ k - abs x.val| = |(m' : ℚ) * (10 : ℚ) ^ k - abs x.val| ∧ (m' = m ∨ m % 2 = 0)))

/-- An integer without superfluous zeros. -/
def NoLeadingZero (ds : List Char) : Prop := Digits ds ∧ ds ≠ [] ∧ (ds = ['0'] ∨ ds.head? ≠ some '0')

/-- How a number is laid out: from `low` to below 10^16 with a point and at least one digit on either side; otherwise with an exponent and one digit before the point, the point
only if digits follow.  No superfluous zeros. -/
def LayoutFrom (low : ℚ) (t : List Char) (v : ℚ) : Prop :=
  (low ≤ v ∧ v < 10 ^ 16 ∧ ∃ whole frac, t = whole ++ '.' :: frac ∧ NoLeadingZero whole ∧ Digits frac ∧ frac ≠ [] ∧
    (frac = ['0'] ∨ frac.getLast? ≠ some '0')) ∨
  ((v < low ∨ 10 ^ 16 ≤ v) ∧ ∃ d frac ex, (t = d :: 'e' :: ex ∧ frac = [] ∨ t = d :: '.' :: (frac ++ 'e' :: ex) ∧ frac ≠ []) ∧
    d.isDigit = true ∧ d ≠ '0' ∧ Digits frac ∧ frac.getLast? ≠ some '0' ∧ ∃ ds, NoLeadingZero ds ∧ (ex = ds ∨ ex = '-' :: ds))

/-- The layout in CSV files: with a point from 0.00001 on. -/
def Layout (t : List Char) (v : ℚ) : Prop := LayoutFrom (1 / 10 ^ 5) t v

/-- Hexadecimal digits and their value. -/
def hexValue (c : Char) : Option Nat := "0123456789abcdef".toList.idxOf? c.toLower

/-- A hexadecimal notation of a natural number: the digits from the left. -/
inductive HexReads : List Char → Nat → Prop
  | nil : HexReads [] 0
  | digit {ds : List Char} {n d : Nat} {c : Char} : HexReads ds n → hexValue c = some d → HexReads (ds ++ [c]) (16 * n + d)

/-- `t` reads as the timestamp `n`: a decimal integer, or after `0x` a hexadecimal one with the sign after the `0x`; 64 bits. -/
def ReadsAsTimestamp (t : List Char) (n : Int) : Prop :=
  -9223372036854775808 ≤ n ∧ n ≤ 9223372036854775807 ∧
    (ReadsInt t n ∨ ∃ body neg ds k, t = '0' :: 'x' :: body ∧ Signed body neg ds ∧ ds ≠ [] ∧ HexReads ds k ∧ n = (if neg = true then -(k : Int) else k))

end Atsc
