import Verif.Model.Stats
import Verif.Model.Bincode
/- The Constant, Noop and RLE compressors. -/
namespace Atsc

/-- `CompressorResult` (/repo/atsc/src/compressor/mod.rs:47-51). -/
structure CResult where
  data : Bytes
  error : F64

/-- Derived `Encode`/`Decode` of `Bitdepth` (/repo/atsc/src/optimizer/utils.rs:20-26): the variant index as a u32. -/
def encBitdepth : Bitdepth → Bytes
  | .f64 => encVar 0 | .i32 => encVar 1 | .i16 => encVar 2 | .u8 => encVar 3
def decBitdepth : Dec Bitdepth := decU32.bind fun n =>
  match n with
  | 0 => Dec.pure .f64 | 1 => Dec.pure .i32 | 2 => Dec.pure .i16 | 3 => Dec.pure .u8
  | _ => Dec.fail

/-- One value written at the given depth: the `as u8` / `as i16` / `as i32` casts and encodings of
/repo/atsc/src/compressor/constant.rs:43-60 and rle.rs:47-64, 113-135. -/
def encValue (bd : Bitdepth) (v : F64) : Bytes :=
  match bd with
  | .u8 => encU8 (UInt8.ofNat v.toU8.toNat)
  | .i16 => encSigned v.toI16
  | .i32 => encSigned v.toI32
  | .f64 => encF64 v

/-- The matching decoders (constant.rs:73-93, rle.rs:75-105). -/
def decValue (bd : Bitdepth) : Dec F64 :=
  match bd with
  | .u8 => decU8.map fun b => FP.ofInt b.toNat
  | .i16 => (decSigned 251).map FP.ofInt
  | .i32 => (decSigned 252).map FP.ofInt
  | .f64 => decF64

/-- `unwrap` of a bincode result, dropping the unread bytes. -/
def unwrapDec {α : Type} (d : Dec α) (bs : Bytes) : Except Panic α :=
  match d bs with
  | some (a, _) => .ok a
  | none => .error .unwrap

/-! ### Constant -/

/-- `struct Constant` (constant.rs:29-36). -/
structure Constant where
  id : UInt8
  constant : F64
  bitdepth : Bitdepth

/-- `Encode for Constant` (constant.rs:37-64). -/
def Constant.enc (c : Constant) : Bytes :=
  encU8 c.id ++ encBitdepth c.bitdepth ++ encValue c.bitdepth c.constant

/-- `Decode for Constant` (constant.rs:66-102). -/
def Constant.dec : Dec Constant :=
  decU8.bind fun id => decBitdepth.bind fun bd => (decValue bd).bind fun v =>
    Dec.pure { id := id, constant := v, bitdepth := bd }

/-- `Constant::new` (constant.rs:106-113). -/
def Constant.new (v : F64) (bd : Bitdepth) : Constant := { id := 30, constant := v, bitdepth := bd }

/-- `Constant::to_data` (constant.rs:130-133). -/
def Constant.toData (c : Constant) (frameSize : Nat) : List F64 := List.replicate frameSize c.constant

/-- `constant_compressor` (constant.rs:135-139). -/
def constantCompressor (_data : List F64) (stats : DataStats) : CResult :=
  { data := (Constant.new stats.min stats.bitdepth).enc, error := FP.zero }

/-- `constant_to_data` (constant.rs:141-144). -/
def constantToData (samples : Nat) (bs : Bytes) : Except Panic (List F64) := do
  let c ← unwrapDec Constant.dec bs
  .ok (c.toData samples)

/-! ### Noop -/

/-- `struct Noop` (/repo/atsc/src/compressor/noop.rs:23-27). -/
structure Noop where
  id : UInt8
  data : List Int

/-- derived `Encode` of `Noop` -/
def Noop.enc (c : Noop) : Bytes := encU8 c.id ++ encVec encSigned c.data
/-- derived `Decode` of `Noop` -/
def Noop.dec : Dec Noop :=
  decU8.bind fun id => (decVec (decSigned 253)).bind fun d => Dec.pure { id := id, data := d }

/-- `Noop::optimize` (noop.rs:37-43). -/
def Noop.optimize (data : List F64) : List Int := data.map fun x => F64.toI64 x.round

/-- `noop` (noop.rs:71-76). -/
def noop (data : List F64) : Bytes := Noop.enc { id := 250, data := Noop.optimize data }

/-- `noop_to_data` (noop.rs:78-82); the sample count is not used. -/
def noopToData (_samples : Nat) (bs : Bytes) : Except Panic (List F64) := do
  let c ← unwrapDec Noop.dec bs
  .ok (c.data.map fun i => FP.ofInt i)

/-! ### RLE -/

/-- `BTreeMap<u64, Vec<usize>>` as an association list with strictly increasing keys. -/
abbrev BMap := List (Nat × List Nat)

/-- The `match encoded.get(..)` / `insert` step (rle.rs:158-171): append an index to the entry of a key,
creating the entry (at its sorted place) if it is missing. -/
def BMap.push (k i : Nat) : BMap → BMap
  | [] => [(k, [i])]
  | (k', is) :: m =>
    if k < k' then (k, [i]) :: (k', is) :: m
    else if k = k' then (k', is ++ [i]) :: m
    else (k', is) :: BMap.push k i m

/-- The loop of `IndexRLE::new` (rle.rs:147-176) on the remaining samples, `i` the position of the first of
them and `cur` the start of the current run. -/
def rleLoop (i cur : Nat) : List F64 → BMap → BMap
  | [], m => m
  | [v], m => BMap.push v.toBits cur m
  | v :: w :: rest, m =>
    if !(w.feq v) then rleLoop (i + 1) (i + 1) (w :: rest) (BMap.push v.toBits cur m)
    else rleLoop (i + 1) cur (w :: rest) m

/-- `struct IndexRLE` (rle.rs:31-38). -/
structure IndexRLE where
  id : UInt8
  rle : List (F64 × List Nat)
  bitdepth : Bitdepth

/-- `IndexRLE::new` (rle.rs:142-189). -/
def IndexRLE.new (data : List F64) (bd : Bitdepth) : IndexRLE :=
  { id := 60, rle := (rleLoop 0 0 data []).map fun p => (FP.ofBits p.1, p.2), bitdepth := bd }

/-- `Encode for IndexRLE` (rle.rs:40-67). -/
def IndexRLE.enc (c : IndexRLE) : Bytes :=
  encU8 c.id ++ encBitdepth c.bitdepth ++
    encVec (fun p : F64 × List Nat => encValue c.bitdepth p.1 ++ encVec encVar p.2) c.rle

/-- `Decode for IndexRLE` (rle.rs:69-109). -/
def IndexRLE.dec : Dec IndexRLE :=
  decU8.bind fun id => decBitdepth.bind fun bd =>
    (decVec ((decValue bd).bind fun v => (decVec decU64).bind fun is => Dec.pure (v, is))).bind fun r =>
      Dec.pure { id := id, rle := r, bitdepth := bd }

/-- `for idx in data.iter_mut().take(stop).skip(start) { *idx = value }` (rle.rs:231-233). -/
def fillRange (data : List F64) (start stop : Nat) (v : F64) : List F64 :=
  data.mapIdx fun i x => if start ≤ i ∧ i < stop then v else x

/-- The filling loop (rle.rs:224-234) over the sorted (index, value) pairs. -/
def rleFill (frameSize : Nat) : List (Nat × F64) → List F64 → List F64
  | [], data => data
  | [(s, v)], data => fillRange data s frameSize v
  | (s, v) :: (s', v') :: rest, data =>
    rleFill frameSize ((s', v') :: rest) (fillRange data s s' v)

/-- Insert before the first entry with a larger key. -/
def insertByKey {α : Type} (x : Nat × α) : List (Nat × α) → List (Nat × α)
  | [] => [x]
  | y :: ys => if x.1 < y.1 then x :: y :: ys else y :: insertByKey x ys

/-- `sort_unstable_by_key(|(index, _)| *index)` (rle.rs:214-220), as an insertion sort: the indexes written by the
encoder are pairwise different, so every sort agrees on them. -/
def sortByKey {α : Type} : List (Nat × α) → List (Nat × α)
  | [] => []
  | x :: xs => insertByKey x (sortByKey xs)

/-- `IndexRLE::to_data` (rle.rs:204-236). -/
def IndexRLE.toData (c : IndexRLE) (frameSize : Nat) : List F64 :=
  let flattened := c.rle.flatMap fun p => p.2.map fun i => (i, p.1)
  let sorted := sortByKey flattened
  rleFill frameSize sorted (List.replicate frameSize FP.zero)

/-- `rle_compressor` (rle.rs:239-243). -/
def rleCompressor (data : List F64) (stats : DataStats) : CResult :=
  { data := (IndexRLE.new data stats.bitdepth).enc, error := FP.zero }

/-- `rle_to_data` (rle.rs:245-248). -/
def rleToData (samples : Nat) (bs : Bytes) : Except Panic (List F64) := do
  let c ← unwrapDec IndexRLE.dec bs
  .ok (c.toData samples)

end Atsc
