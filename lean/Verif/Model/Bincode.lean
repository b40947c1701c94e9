import Verif.Model.Float
/-
Byte-level model of `bincode 2.0.0-rc.3` with `config::standard()` (little endian, variable-length
integers, no limit), the configuration returned by `BinConfig::get`
(/repo/atsc/src/compressor/mod.rs:120-131).  The crate's source is not in the sandbox; the format is the
one of its public specification and is checked against the golden byte strings in /repo's unit tests
(`Verif/Props/Golden.lean`).
-/
namespace Atsc

abbrev Bytes := List UInt8

/-- A decoder consumes a prefix of its input and returns the remaining bytes; `none` is `Err(_)`. -/
abbrev Dec (α : Type) := Bytes → Option (α × Bytes)

namespace Dec
/-- Run a decoder, then another that may depend on its result (the `?` operator). -/
def bind {α β : Type} (d : Dec α) (f : α → Dec β) : Dec β := fun bs =>
  match d bs with
  | some (a, r) => f a r
  | none => none
/-- Return a value without reading. -/
def pure {α : Type} (a : α) : Dec α := fun bs => some (a, bs)
/-- Fail. -/
def fail {α : Type} : Dec α := fun _ => none
/-- Post-process a decoded value. -/
def map {α β : Type} (f : α → β) (d : Dec α) : Dec β := d.bind fun a => pure (f a)
end Dec

/-- `n` little-endian bytes of `x`. -/
def leBytes : Nat → Nat → Bytes
  | 0, _ => []
  | n + 1, x => UInt8.ofNat (x % 256) :: leBytes n (x / 256)

/-- Number read from little-endian bytes. -/
def ofLE : Bytes → Nat
  | [] => 0
  | b :: bs => b.toNat + 256 * ofLE bs

/-- Read exactly `n` bytes (`UnexpectedEnd` otherwise). -/
def takeBytes (n : Nat) : Dec Bytes := fun bs =>
  if n ≤ bs.length then some (bs.take n, bs.drop n) else none

/-- Read an `n`-byte little-endian number. -/
def decLE (n : Nat) : Dec Nat := (takeBytes n).map ofLE

/-- bincode `varint_encode_u64` (also used for `usize`, lengths, and u16/u32 values, whose encodings agree
with it on their range). -/
def encVar (x : Nat) : Bytes :=
  if x < 251 then [UInt8.ofNat x]
  else if x < 2 ^ 16 then 251 :: leBytes 2 x
  else if x < 2 ^ 32 then 252 :: leBytes 4 x
  else 253 :: leBytes 8 x

/-- bincode `varint_decode_*`; `maxTag` is 251 for u16, 252 for u32, 253 for u64/usize: larger tags are
`InvalidIntegerType`. -/
def decVar (maxTag : Nat) : Dec Nat := fun bs =>
  match bs with
  | [] => none
  | b :: r =>
    if b.toNat < 251 then some (b.toNat, r)
    else if maxTag < b.toNat then none
    else if b.toNat = 251 then decLE 2 r
    else if b.toNat = 252 then decLE 4 r
    else if b.toNat = 253 then decLE 8 r
    else none

def decU16 : Dec Nat := decVar 251
def decU32 : Dec Nat := decVar 252
def decU64 : Dec Nat := decVar 253

/-- bincode zigzag map of signed integers: `0, -1, 1, -2, ... ↦ 0, 1, 2, 3, ...`. -/
def zigzag (i : Int) : Nat := if 0 ≤ i then 2 * i.natAbs else 2 * i.natAbs - 1
def unzigzag (n : Nat) : Int := if n % 2 = 0 then ((n / 2 : Nat) : Int) else -((n / 2 + 1 : Nat) : Int)

/-- signed integers -/
def encSigned (i : Int) : Bytes := encVar (zigzag i)
def decSigned (maxTag : Nat) : Dec Int := (decVar maxTag).map unzigzag

/-- `u8`: one raw byte. -/
def encU8 (b : UInt8) : Bytes := [b]
def decU8 : Dec UInt8 := fun bs =>
  match bs with
  | [] => none
  | b :: r => some (b, r)

/-- floats: little-endian bits. -/
def encF64 (x : F64) : Bytes := leBytes 8 x.toBits
def decF64 : Dec F64 := (decLE 8).map FP.ofBits
def encF32 (x : F32) : Bytes := leBytes 4 x.toBits
def decF32 : Dec F32 := (decLE 4).map FP.ofBits

/-- Read `n` items. -/
def decN {α : Type} (d : Dec α) : Nat → Dec (List α)
  | 0 => Dec.pure []
  | n + 1 => d.bind fun a => (decN d n).bind fun as => Dec.pure (a :: as)

/-- `Vec<T>`: u64 length, then the items. -/
def encVec {α : Type} (e : α → Bytes) (xs : List α) : Bytes := encVar xs.length ++ (xs.map e).flatten
def decVec {α : Type} (d : Dec α) : Dec (List α) := decU64.bind fun n => decN d n

end Atsc
