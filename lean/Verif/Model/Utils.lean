import Verif.Model.Stats
/- Model of /repo/atsc/src/utils/mod.rs and /repo/atsc/src/utils/error.rs. -/
namespace Atsc

/-- `prev_power_of_two` (/repo/atsc/src/utils/mod.rs:24-29): `63 - (n | 1).leading_zeros()` is the index of the
highest set bit of `n | 1`; the result is that bit masked with `n`. -/
def prevPowerOfTwo (n : Nat) : Nat := (1 <<< (n ||| 1).log2) &&& n

/-- One of the two `while n % p == 0 { n /= p }` loops (mod.rs:42-47).  The fuel is never exhausted for
`n ≥ 1`; for `n = 0` the Rust loop does not terminate (no caller passes 0). -/
def stripFactor (p : Nat) : Nat → Nat → Nat
  | 0, n => n
  | fuel + 1, n => if n % p = 0 then stripFactor p fuel (n / p) else n

/-- `is_decomposable` (mod.rs:41-49). -/
def isDecomposable (n : Nat) : Bool :=
  let a := stripFactor 2 n n
  let b := stripFactor 3 a a
  decide (b = 1)

/-- The `while !is_decomposable(n) { n += 1 }` loop of `next_size`, with fuel. -/
def nextSizeFrom : Nat → Nat → Nat
  | 0, n => n
  | fuel + 1, n => if isDecomposable n then n else nextSizeFrom fuel (n + 1)

/-- `next_size` (mod.rs:32-38).  Some power of two lies in `(n, 2n+1]`, so `n + 1` steps suffice. -/
def nextSize (n : Nat) : Nat := nextSizeFrom (n + 1) (n + 1)

/-- `f64_to_u64` (mod.rs:52-59). -/
def f64ToU64 (number : F64) (precision : Nat) : Except Panic Int :=
  if 6 < precision then .error .explicit
  else .ok ((number.mul (F64.lit (10 ^ precision))).toInt 0 (2 ^ 64 - 1))

/-- `round_f64` (mod.rs:61-64).  `10i32.pow(decimals)` does not overflow for `decimals ≤ 9` (only 3 and 4 are used). -/
def roundF64 (x : F64) (decimals : Nat) : F64 :=
  let y := F64.lit (10 ^ decimals)
  ((x.mul y).round).div y

/-- `round_and_limit_f64` (mod.rs:66-74). -/
def roundAndLimit (x min max : F64) (decimals : Nat) : F64 :=
  let y := F64.lit (10 ^ decimals)
  let out := ((x.mul y).round).div y
  if out.lt min then min else if max.lt out then max else out

/-! ### Error metrics (/repo/atsc/src/utils/error.rs) -/

/-- `iter.sum::<f64>()`: left to right starting from `0.0` (as in Rust 1.81, the toolchain of /repo/rust-toolchain.toml; from 1.83 on the start is `-0.0`,
which differs only for empty sums and sums of negative zeros). -/
def fsum (xs : List F64) : F64 := xs.foldl FP.add FP.zero

/-- `x.powi(2)`. -/
def fsq (x : F64) : F64 := x.mul x

/-- `error_mse` (error.rs:58-66). -/
def errorMse (a b : List F64) : Except Panic F64 :=
  if a.length ≠ b.length then .error .explicit
  else .ok ((fsum (List.zipWith (fun x y => fsq (x.sub y)) a b)).div (F64.lit (min a.length b.length : Nat)))

/-- `error_nmsqe` (error.rs:71-83). -/
def errorNmse (a b : List F64) : Except Panic F64 :=
  if a.length ≠ b.length then .error .explicit
  else .ok ((fsum (List.zipWith (fun o g => fsq (g.sub o)) a b)).div (fsum (a.map fsq)))

/-- `error_mae` (error.rs:88-99). -/
def errorMae (a b : List F64) : Except Panic F64 :=
  if a.length ≠ b.length then .error .explicit
  else .ok ((fsum (List.zipWith (fun o g => (g.sub o).abs) a b)).div (F64.lit a.length))

/-- `error_mape` (error.rs:104-116). -/
def errorMape (a b : List F64) : Except Panic F64 :=
  if a.length ≠ b.length then .error .explicit
  else .ok ((fsum (List.zipWith (fun o g => ((g.sub o).div o).abs) a b)).div (F64.lit a.length))

/-- Loop body of `error_smape` (error.rs:129-135). -/
def smapeStep (s : F64 × F64) (p : F64 × F64) : F64 × F64 :=
  if p.2.feq FP.zero && p.1.feq FP.zero then s
  else (s.1.add (p.2.sub p.1).abs, s.2.add (p.1.abs.add p.2.abs))

/-- `error_smape` (error.rs:122-137). -/
def errorSmape (a b : List F64) : Except Panic F64 :=
  if a.length ≠ b.length then .error .explicit
  else
    let s := (a.zip b).foldl smapeStep (FP.zero, FP.zero)
    .ok ((s.1.div s.2).div (F64.lit a.length))

/-- `enum ErrorMethod` and `ErrorMethod::error` (error.rs:20-39). -/
inductive ErrorMethod where
  | mse | nmse | mae | mape | smape
def ErrorMethod.error (m : ErrorMethod) (a b : List F64) : Except Panic F64 :=
  match m with
  | .mse => errorMse a b
  | .nmse => errorNmse a b
  | .mae => errorMae a b
  | .mape => errorMape a b
  | .smape => errorSmape a b

/-- `calculate_error` (error.rs:44-46): the default method is MAPE. -/
def calculateError (a b : List F64) : Except Panic F64 := ErrorMethod.error .mape a b

end Atsc
