import Verif.Model.Float
import Mathlib.Data.Rat.Floor
import Mathlib.Algebra.Order.Field.Power
/-
Specification vocabulary for floats: the real number a float stands for, written as in IEEE-754,
independently of the model's integer arithmetic.
-/
namespace Atsc

/-- The rational number denoted by a finite float: `(-1)^s * 1.m * 2^(e - bias)`, or `(-1)^s * 0.m * 2^(1 - bias)`
when the exponent field is zero. -/
def FP.val {mb eb : Nat} (x : FP mb eb) : ℚ :=
  let e : Nat := x.mag.val / 2 ^ mb
  let m : Nat := x.mag.val % 2 ^ mb
  let bias : ℤ := 2 ^ (eb - 1) - 1
  let s : ℚ := if x.sign then -1 else 1
  if e = 0 then s * ((m : ℚ) / 2 ^ mb) * 2 ^ (1 - bias) else s * (1 + (m : ℚ) / 2 ^ mb) * 2 ^ ((e : ℤ) - bias)

/-- A chunk without NaN and infinities. -/
def AllFinite (data : List F64) : Prop := ∀ x ∈ data, x.isFinite = true

/-- Equality of samples as Rust's `==` sees it, element by element (so `0.0` and `-0.0` agree). -/
def SameValues (a b : List F64) : Prop :=
  a.length = b.length ∧ ∀ i (ha : i < a.length) (hb : i < b.length), (a[i]).val = (b[i]).val ∧
    a[i].isFinite = true ∧ b[i].isFinite = true

/-- Magnitudes for which the bit-depth analysis is sound: zero or `2^-64 ≤ |x| < 2^63`. -/
def InRange (x : F64) : Prop :=
  x.val = 0 ∨ ((2 : ℚ) ^ (-64 : ℤ) ≤ |x.val| ∧ |x.val| < (2 : ℚ) ^ (63 : ℤ))

/-- Round half away from zero. -/
def roundHalfAway (q : ℚ) : ℤ := if q < 0 then -⌊1 / 2 - q⌋ else ⌊q + 1 / 2⌋

end Atsc
