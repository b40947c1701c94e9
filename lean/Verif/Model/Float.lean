/-
Bit-exact model of Rust's `f64` and `f32` (IEEE-754 binary64/binary32, round to nearest, ties to even).

A value of `FP mb eb` is a sign bit and a *magnitude pattern*: the remaining `mb + eb` bits read as a
number.  The pattern order is the order of magnitudes, which keeps the definitions short:

* `magVal mb k` is the value of pattern `k` counted in units of the smallest positive subnormal;
* all arithmetic is done exactly on these integers (or quotients of them) and rounded once.

Simplification: a NaN *produced* by arithmetic is the canonical quiet NaN (sign 0); Rust leaves sign and
payload of such a NaN unspecified.  NaNs that are only copied keep their bits.
-/
namespace Atsc

/-- Power-of-two shift of the binade of magnitude pattern `k` with `mb` stored mantissa bits
(0 for subnormals and for the first normal binade). -/
def magShift (mb k : Nat) : Nat := k / 2 ^ mb - 1

/-- Value of magnitude pattern `k` in units of the smallest positive subnormal. -/
def magVal (mb k : Nat) : Nat := (k - magShift mb k * 2 ^ mb) * 2 ^ magShift mb k

/-- Largest pattern whose value is at most the integer `n` (units of the smallest subnormal). -/
def floorPat (mb n : Nat) : Nat := (n.log2 - mb) * 2 ^ mb + n / 2 ^ (n.log2 - mb)

/-- IEEE round-to-nearest-even of the non-negative rational `p / q` to a magnitude pattern
(unbounded exponent; `FP.ofRound` caps at infinity). -/
def roundPat (mb p q : Nat) : Nat :=
  let k := floorPat mb (p / q)
  let mid := (magVal mb k + magVal mb (k + 1)) * q
  if 2 * p < mid then k
  else if mid < 2 * p then k + 1
  else if k % 2 = 0 then k else k + 1

/-- IEEE-754 binary interchange format with `mb` stored mantissa bits and `eb` exponent bits. -/
structure FP (mb eb : Nat) where
  sign : Bool
  mag : Fin (2 ^ (mb + eb))
  deriving DecidableEq

/-- Rust `f64`. -/
abbrev F64 := FP 52 11
/-- Rust `f32`. -/
abbrev F32 := FP 23 8

namespace FP
variable {mb eb : Nat}

/-- Pattern of infinity: all exponent bits set, mantissa zero. -/
def infMag (mb eb : Nat) : Nat := (2 ^ eb - 1) * 2 ^ mb

/-- `-log2` of the smallest positive subnormal: 1074 for f64, 149 for f32. -/
def qexp (mb eb : Nat) : Nat := 2 ^ (eb - 1) - 2 + mb

theorem infMag_lt (mb eb : Nat) : infMag mb eb < 2 ^ (mb + eb) := by
  unfold infMag
  rw [Nat.pow_add, Nat.mul_comm (2 ^ mb)]
  exact Nat.mul_lt_mul_of_pos_right (Nat.sub_lt (Nat.two_pow_pos _) Nat.one_pos) (Nat.two_pow_pos _)

/-- Build a float from a sign and a pattern, capping at infinity. -/
def ofPat (s : Bool) (k : Nat) : FP mb eb :=
  ⟨s, ⟨min k (infMag mb eb), Nat.lt_of_le_of_lt (Nat.min_le_right _ _) (infMag_lt mb eb)⟩⟩

/-- Correctly rounded `± p / q`, where `p / q` is counted in smallest subnormals; overflow gives infinity. -/
def ofRound (s : Bool) (p q : Nat) : FP mb eb := ofPat s (roundPat mb p q)

def zero : FP mb eb := ofPat false 0
def negZero : FP mb eb := ofPat true 0
def inf (s : Bool) : FP mb eb := ofPat s (infMag mb eb)

/-- Canonical quiet NaN (0x7ff8000000000000 for f64), when the format has mantissa bits. -/
def nan : FP mb eb :=
  ⟨false, ⟨min (infMag mb eb + 2 ^ (mb - 1)) (2 ^ (mb + eb) - 1),
    Nat.lt_of_le_of_lt (Nat.min_le_right _ _) (Nat.sub_lt (Nat.two_pow_pos _) Nat.one_pos)⟩⟩

/-- `f64::is_nan`. -/
def isNaN (x : FP mb eb) : Bool := decide (infMag mb eb < x.mag.val)
/-- `f64::is_infinite`. -/
def isInf (x : FP mb eb) : Bool := decide (x.mag.val = infMag mb eb)
/-- `f64::is_finite`. -/
def isFinite (x : FP mb eb) : Bool := decide (x.mag.val < infMag mb eb)

/-- Magnitude in units of the smallest subnormal (an infinity gets the value just above the largest
finite number, which is all that comparisons need). -/
def absVal (x : FP mb eb) : Nat := magVal mb x.mag.val

/-- Signed value in units of the smallest subnormal. -/
def scaled (x : FP mb eb) : Int := if x.sign then -(x.absVal : Int) else (x.absVal : Int)

/-- Rust `a < b`. -/
def lt (a b : FP mb eb) : Bool := !a.isNaN && !b.isNaN && decide (a.scaled < b.scaled)
/-- Rust `a <= b`. -/
def le (a b : FP mb eb) : Bool := !a.isNaN && !b.isNaN && decide (a.scaled ≤ b.scaled)
/-- Rust `a == b` (so `0.0 == -0.0`, and NaN equals nothing). -/
def feq (a b : FP mb eb) : Bool := !a.isNaN && !b.isNaN && decide (a.scaled = b.scaled)

/-- Rust unary minus. -/
def neg (a : FP mb eb) : FP mb eb := ⟨!a.sign, a.mag⟩
/-- `f64::abs`. -/
def abs (a : FP mb eb) : FP mb eb := ⟨false, a.mag⟩

/-- Rust `a + b`. -/
def add (a b : FP mb eb) : FP mb eb :=
  if a.isNaN || b.isNaN then nan
  else if a.isInf then (if b.isInf && a.sign != b.sign then nan else a)
  else if b.isInf then b
  else if a.scaled + b.scaled = 0 then ofPat (a.sign && b.sign) 0
  else ofRound (decide (a.scaled + b.scaled < 0)) (a.scaled + b.scaled).natAbs 1

/-- Rust `a - b`. -/
def sub (a b : FP mb eb) : FP mb eb := add a (neg b)

/-- Rust `a * b`. -/
def mul (a b : FP mb eb) : FP mb eb :=
  if a.isNaN || b.isNaN then nan
  else if a.isInf || b.isInf then
    (if a.absVal = 0 || b.absVal = 0 then nan else inf (a.sign != b.sign))
  else ofRound (a.sign != b.sign) (a.absVal * b.absVal) (2 ^ qexp mb eb)

/-- Rust `a / b`. -/
def div (a b : FP mb eb) : FP mb eb :=
  if a.isNaN || b.isNaN then nan
  else if a.isInf then (if b.isInf then nan else inf (a.sign != b.sign))
  else if b.isInf then ofPat (a.sign != b.sign) 0
  else if b.absVal = 0 then (if a.absVal = 0 then nan else inf (a.sign != b.sign))
  else ofRound (a.sign != b.sign) (a.absVal * 2 ^ qexp mb eb) b.absVal

/-- `f64::round`: nearest integer, halves away from zero; the sign is kept (so `-0.3` gives `-0.0`). -/
def round (a : FP mb eb) : FP mb eb :=
  if a.isFinite then
    ofRound a.sign ((2 * a.absVal + 2 ^ qexp mb eb) / (2 * 2 ^ qexp mb eb) * 2 ^ qexp mb eb) 1
  else a

/-- Integer part (towards zero) of a non-NaN float. -/
def truncInt (a : FP mb eb) : Int :=
  if a.sign then -((a.absVal / 2 ^ qexp mb eb : Nat) : Int) else ((a.absVal / 2 ^ qexp mb eb : Nat) : Int)

/-- Rust float-to-integer `as` cast: truncation, saturating at the bounds, NaN gives 0. -/
def toInt (lo hi : Int) (a : FP mb eb) : Int :=
  if a.isNaN then 0 else max lo (min hi a.truncInt)

/-- Rust integer-to-float `as` cast: round to nearest even. -/
def ofInt (n : Int) : FP mb eb := ofRound (decide (n < 0)) (n.natAbs * 2 ^ qexp mb eb) 1

/-- Rust `as` cast between float formats (`f64 as f32` rounds, `f32 as f64` is exact). -/
def cvt {mb' eb' : Nat} (a : FP mb eb) : FP mb' eb' :=
  if a.isNaN then nan
  else if a.isInf then inf a.sign
  else ofRound a.sign (a.absVal * 2 ^ qexp mb' eb') (2 ^ qexp mb eb)

/-- `to_bits` as a natural number. -/
def toBits (x : FP mb eb) : Nat := (if x.sign then 2 ^ (mb + eb) else 0) + x.mag.val

/-- `from_bits` (of the low `mb + eb + 1` bits of `n`). -/
def ofBits (n : Nat) : FP mb eb :=
  ⟨decide (n / 2 ^ (mb + eb) % 2 = 1), ⟨n % 2 ^ (mb + eb), Nat.mod_lt _ (Nat.two_pow_pos _)⟩⟩

end FP

/-- `x as u8`. -/
def F64.toU8 (x : F64) : Int := x.toInt 0 255
/-- `x as i16`. -/
def F64.toI16 (x : F64) : Int := x.toInt (-2 ^ 15) (2 ^ 15 - 1)
/-- `x as i32`. -/
def F64.toI32 (x : F64) : Int := x.toInt (-2 ^ 31) (2 ^ 31 - 1)
/-- `x as i64`. -/
def F64.toI64 (x : F64) : Int := x.toInt (-2 ^ 63) (2 ^ 63 - 1)

end Atsc
