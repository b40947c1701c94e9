import Verif.Model.Float
import Verif.Model.Panic
/- Model of /repo/atsc/src/optimizer/utils.rs. -/
namespace Atsc

/-- `enum Bitdepth` (/repo/atsc/src/optimizer/utils.rs:20-26). -/
inductive Bitdepth where
  | f64 | i32 | i16 | u8
  deriving DecidableEq, Repr

/-- `f64::from(n)` for an integer literal. -/
def F64.lit (n : Int) : F64 := FP.ofInt n

/-- Two's complement reduction to `i64`. -/
def wrapI64 (x : Int) : Int := (x + 2 ^ 63) % 2 ^ 64 - 2 ^ 63

/-- `FRACT_SCALE` (utils.rs:116). -/
def fractScale : F64 :=
  (F64.lit 1).div ((((F64.lit 65536).mul (F64.lit 65536)).mul (F64.lit 65536)).mul (F64.lit 65536))

/-- `split_n` (/repo/atsc/src/optimizer/utils.rs:115-160), on the 64-bit pattern of `x`.
`bits & MASK` is `% 2^52`, `| MANTISSA_MSB` is `+ 2^52` (the bit is clear), `as u64` of a negative `i64`
adds `2^64`, `>>` on `i64` is floor division, `<<` discards the bits above 64. -/
def splitN (x : F64) : Int × F64 :=
  let bits := x.toBits
  let isNegative : Bool := decide (2 ^ 63 ≤ bits)
  let exponent : Int := ((bits / 2 ^ 52) % 2 ^ 11 : Nat)
  let mant0 : Nat := bits % 2 ^ 52 + 2 ^ 52
  let mantissa : Int := if isNegative then -(mant0 : Int) else mant0
  let mantissaU : Nat := if isNegative then 2 ^ 64 - mant0 else mant0
  let shl : Int := exponent + (64 - 53 - 1023 + 1)
  if shl ≤ 0 then
    let shr := (-shl).toNat
    if shr < 64 then
      (0, (F64.lit ((mantissaU / 2 ^ shr : Nat) : Int)).mul fractScale)
    else (0, FP.zero)
  else if shl < 64 then
    (mantissa / 2 ^ (64 - shl.toNat),
      (F64.lit ((mantissaU * 2 ^ shl.toNat % 2 ^ 64 : Nat) : Int)).mul fractScale)
  else if shl < 128 then
    (wrapI64 (mantissa * 2 ^ (shl.toNat - 64)), FP.zero)
  else (0, FP.zero)

/-- `DataStats::bitdepth` (utils.rs:91-114). -/
def bitdepthOf (maxInt minInt : Int) : Bitdepth :=
  let bd : Nat :=
    if maxInt ≤ 255 then 8 else if maxInt ≤ 2 ^ 15 - 1 then 16 else if maxInt ≤ 2 ^ 31 - 1 then 32 else 64
  let bds : Nat :=
    if 0 ≤ minInt ∧ minInt ≤ 255 then 8 else if -2 ^ 15 ≤ minInt then 16
    else if -2 ^ 31 ≤ minInt then 32 else 64
  match max bd bds with
  | 8 => .u8
  | 16 => .i16
  | 32 => .i32
  | _ => .f64

/-- `struct DataStats` (utils.rs:28-36). -/
structure DataStats where
  max : F64
  maxLoc : Nat
  min : F64
  minLoc : Nat
  mean : F64
  bitdepth : Bitdepth
  fractional : Bool

/-- Accumulator of the analysis loop (utils.rs:40-48). -/
structure StatsAcc where
  i : Nat
  min : F64
  minLoc : Nat
  max : F64
  maxLoc : Nat
  fractional : Bool
  sum : F64

/-- One iteration of the analysis loop (utils.rs:50-64). -/
def StatsAcc.step (a : StatsAcc) (v : F64) : StatsAcc :=
  { i := a.i + 1
    sum := a.sum.add v
    fractional := a.fractional || !((splitN v).2.feq FP.zero)
    max := if a.max.lt v then v else a.max
    maxLoc := if a.max.lt v then a.i else a.maxLoc
    min := if v.lt a.min then v else a.min
    minLoc := if v.lt a.min then a.i else a.minLoc }

/-- `DataStats::new` (utils.rs:39-89); `data[0]` panics on an empty slice. -/
def DataStats.new (data : List F64) : Except Panic DataStats :=
  match data with
  | [] => .error .index
  | d0 :: _ =>
    let a := data.foldl StatsAcc.step
      { i := 0, min := d0, minLoc := 0, max := d0, maxLoc := 0, fractional := false, sum := FP.zero }
    .ok
      { max := a.max, maxLoc := a.maxLoc, min := a.min, minLoc := a.minLoc
        mean := a.sum.div (F64.lit data.length)
        bitdepth := if a.fractional then .f64 else bitdepthOf (splitN a.max).1 (splitN a.min).1
        fractional := a.fractional }

end Atsc
