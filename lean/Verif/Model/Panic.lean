/-
Panics of the Rust code as explicit values.

Every Rust function that can panic is modelled as a function into `Except Panic α`.
-/
namespace Atsc

/-- The ways a modelled Rust function can panic. -/
inductive Panic where
  /-- `unwrap()`/`expect()` on `Err`/`None` (includes every failed bincode decode: the code unwraps all of them). -/
  | unwrap
  /-- slice/array index out of range, `split_at` past the end. -/
  | index
  /-- division or remainder by zero, `step_by(0)`. -/
  | divZero
  /-- arithmetic overflow detected by a debug build. -/
  | overflow
  /-- `todo!()`. -/
  | todo
  /-- explicit `panic!(..)`. -/
  | explicit
  /-- not a Rust panic: the model's loop fuel ran out.  Proved unreachable for every modelled loop. -/
  | outOfFuel
  deriving DecidableEq, Repr

/-- Rust build profile: integer overflow panics in `debug`, wraps in `release`
(Cargo.toml profiles keep the defaults for `overflow-checks`). -/
inductive Profile where
  | debug
  | release
  deriving DecidableEq, Repr

end Atsc
