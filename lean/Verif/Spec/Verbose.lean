import Verif.Spec.Decimal
/- Specification for C109: a list of numbers on one line. -/
namespace Atsc

/-- `m * 10^k` is the shortest decimal that reads as `x`: no decimal that reads as `x` ends further left; among those that end there it is the nearest to `x`, and of two
equally near ones the one further from zero. -/
def ShortestAway (x : F64) (m : Nat) (k : Int) : Prop :=
  Nearest x.sign ((m : ℚ) * (10 : ℚ) ^ k) x ∧
    ∀ (m' : Nat) (k' : Int), Nearest x.sign ((m' : ℚ) * (10 : ℚ) ^ k') x → k' ≤ k ∧
      (k' = k → |(m : ℚ) * (10 : ℚ) ^ k - abs x.val| < |(m' : ℚ) * (10 : ℚ) ^ k - abs x.val| ∨
        (|(m : ℚ) * (10 : ℚ) ^ k - abs x.val| = |(m' : ℚ) * (10 : ℚ) ^ k - abs x.val| ∧ m' ≤ m))

/-- `t` lists the entries `es` in brackets, separated by a comma and a space. -/
def Bracketed (t : List Char) (es : List (List Char)) : Prop := t = '[' :: ((es.intersperse [',', ' ']).flatten ++ [']'])

/-- The entry `e` is the sample `x`: it reads as `x`, bit for bit; for a NaN it is the word `NaN`. -/
def EntryOf (e : List Char) (x : F64) : Prop := (x.isNaN = false ∧ ReadsAsFloat e x) ∨ (x.isNaN = true ∧ e = "NaN".toList)

/-- The same sample, all NaNs being alike. -/
def SameSample (x y : F64) : Prop := x = y ∨ (x.isNaN = true ∧ y.isNaN = true)

/-- The line `t` shows the samples `d` under the heading `label`. -/
def LineOf (label : String) (d : List F64) (t : List Char) : Prop :=
  ∃ body es, t = label.toList ++ body ++ ['\n'] ∧ Bracketed body es ∧ List.Forall₂ EntryOf es d

end Atsc
