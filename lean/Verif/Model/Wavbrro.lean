import Verif.Model.Panic
import Verif.Model.Bincode
/- Model of the WavBrro container: /repo/wavbrro/src/wavbrro.rs, read.rs and write.rs.

The archive format is the one of the `rkyv` 0.7 crate (feature `size_32`: 32-bit relative pointers and lengths, little endian) for the type
`WavBrro`.  The crate's source is not in the sandbox: the layout written here is the crate's documented one (every value is preceded by what it
points to; the root is at the end) and is checked against the golden byte string of wavbrro.rs:216-222 in `Verif/Props/Golden.lean`.
The reader is `rkyv::from_bytes`: validate (`check_bytes`), then copy.  Of the validation the model keeps the bounds, alignment and
no-sharing ("prefix subtree") checks of every pointer; integers and floats need none. -/
namespace Atsc

/-- `MAX_CHUNK_SIZE` (wavbrro.rs:24). -/
def maxChunk : Nat := 2048

/-- `struct WavBrro` (wavbrro.rs:37-46). -/
structure WavBrro where
  sampleCount : Nat
  bitdepth : Nat
  chunks : List (List F64)
  deriving DecidableEq

/-- The outcome of `WavBrro::from_file` (wavbrro.rs:101-109). -/
inductive WbroRead where
  /-- `Err(Error::IoError(..))`: fewer than 12 bytes -/
  | ioError
  /-- `Err(Error::FormatError)` -/
  | formatError
  /-- `Ok(samples)` -/
  | samples (d : List F64)
  deriving DecidableEq

namespace WavBrro

/-- `WavBrro::new` (wavbrro.rs:55-63). -/
def new : WavBrro := { sampleCount := 0, bitdepth := 5, chunks := [] }

/-- `is_chunk_full` (wavbrro.rs:65-70). -/
def isChunkFull (w : WavBrro) : Bool :=
  match w.chunks.getLast? with
  | some c => decide (maxChunk ≤ c.length)
  | none => true

/-- `create_chunk` (wavbrro.rs:72-75). -/
def createChunk (w : WavBrro) : WavBrro := { w with chunks := w.chunks ++ [[]] }

/-- `self.chunks.last_mut().unwrap().push(sample)` (wavbrro.rs:91). -/
def pushLast (w : WavBrro) (x : F64) : Except Panic WavBrro :=
  match w.chunks.getLast? with
  | some c => .ok { w with chunks := w.chunks.dropLast ++ [c ++ [x]] }
  | none => .error .unwrap

/-- `add_sample` (wavbrro.rs:87-93).  `sample_count += 1` is a `u32` addition: it panics in a debug build and wraps in a release build. -/
def addSample (p : Profile) (w : WavBrro) (x : F64) : Except Panic WavBrro := do
  let w1 := if w.isChunkFull then w.createChunk else w
  let w2 ← w1.pushLast x
  if w2.sampleCount + 1 < 4294967296 then .ok { w2 with sampleCount := w2.sampleCount + 1 }
  else match p with
    | .debug => .error .overflow
    | .release => .ok { w2 with sampleCount := 0 }

/-- A sequence of `add_sample` calls. -/
def addAll (p : Profile) : WavBrro → List F64 → Except Panic WavBrro
  | w, [] => .ok w
  | w, x :: xs => do
    let w' ← w.addSample p x
    addAll p w' xs

/-- `slice::chunks(n)`. -/
def chunksOf (n : Nat) (d : List F64) : List (List F64) :=
  if h : d = [] ∨ n = 0 then [] else d.take n :: chunksOf n (d.drop n)
termination_by d.length
decreasing_by
  have : 0 < d.length := List.length_pos_iff.2 (fun hd => h (.inl hd))
  have : n ≠ 0 := fun hn => h (.inr hn)
  simp only [List.length_drop]; omega

/-- `from_slice` (wavbrro.rs:78-85). -/
def fromSlice (d : List F64) : WavBrro :=
  { sampleCount := d.length % 4294967296, bitdepth := 5, chunks := chunksOf maxChunk d }

/-- `get_samples` (wavbrro.rs:97-99). -/
def getSamples (w : WavBrro) : List F64 := w.chunks.flatten

/-! ### rkyv -/

/-- A relative pointer: the distance from its own position to its target, as an `i32`; `RelPtr::emplace` panics if it does not fit. -/
def relPtr (pos target : Nat) : Except Panic Bytes :=
  let d : Int := (target : Int) - (pos : Int)
  if -2147483648 ≤ d ∧ d < 2147483648 then .ok (leBytes 4 (d % 4294967296).toNat) else .error .unwrap

/-- An archived `Vec`: pointer to its items and their number (`len as u32`). -/
def arcVec (pos target len : Nat) : Except Panic Bytes := do
  let r ← relPtr pos target
  .ok (r ++ leBytes 4 (len % 4294967296))

/-- The archived inner vectors: one after the other at `pos`, the items of the first at `target` (all items were written back to back). -/
def arcInner : Nat → Nat → List (List F64) → Except Panic Bytes
  | _, _, [] => .ok []
  | pos, target, c :: cs => do
    let a ← arcVec pos target c.length
    let b ← arcInner (pos + 8) (target + 8 * c.length) cs
    .ok (a ++ b)

/-- `to_bytes` (wavbrro.rs:123-125): the samples of every chunk, the archived inner vectors, the root (the compiler puts `chunks` first, then
`sample_count`, `bitdepth` and three bytes of padding). -/
def toBytes (w : WavBrro) : Except Panic Bytes := do
  let items := w.chunks.flatten.flatMap encF64
  let inner ← arcInner items.length 0 w.chunks
  let root ← arcVec (items.length + inner.length) items.length w.chunks.length
  .ok (items ++ inner ++ root ++ leBytes 4 w.sampleCount ++ [UInt8.ofNat w.bitdepth, 0, 0, 0])

/-- The bytes `pos .. pos + n`. -/
def sliceAt (bs : Bytes) (pos n : Nat) : Bytes := (bs.drop pos).take n

/-- An `i32` read at a position. -/
def i32At (bs : Bytes) (pos : Nat) : Int :=
  let u := ofLE (sliceAt bs pos 4)
  if u < 2147483648 then (u : Int) else (u : Int) - 4294967296

/-- A `u32` read at a position. -/
def u32At (bs : Bytes) (pos : Nat) : Nat := ofLE (sliceAt bs pos 4)

/-- Validation of an archived `Vec` at `pos` whose items (`size` bytes, alignment `align`) must lie in `[lo, hi)`; `addr` is the address of
the buffer.  Gives the position and number of the items. -/
def checkVec (bs : Bytes) (addr pos lo hi size align : Nat) : Option (Nat × Nat) :=
  let t : Int := (pos : Int) + i32At bs pos
  let n := u32At bs (pos + 4)
  if (lo : Int) ≤ t ∧ t + (size * n : Nat) ≤ (hi : Int) ∧ (addr + t.toNat) % align = 0 then some (t.toNat, n) else none

/-- The `f64` items of a chunk. -/
def itemsAt (bs : Bytes) (pos : Nat) : Nat → List F64
  | 0 => []
  | n + 1 => FP.ofBits (ofLE (sliceAt bs pos 8)) :: itemsAt bs (pos + 8) n

/-- Validation and copy of the inner vectors (`n` of them, the first at `pos`); each must lie after the previous one and before `hi`. -/
def readInner (bs : Bytes) (addr hi : Nat) : Nat → Nat → Nat → Option (List (List F64))
  | 0, _, _ => some []
  | n + 1, pos, lo =>
    match checkVec bs addr pos lo hi 8 8 with
    | none => none
    | some (t, k) =>
      match readInner bs addr hi n (pos + 8) (t + 8 * k) with
      | none => none
      | some cs => some (itemsAt bs t k :: cs)

/-- `from_bytes` (wavbrro.rs:127-129) on a buffer at address `addr`: any validation failure is a panic (`expect`). -/
def fromBytes (addr : Nat) (bs : Bytes) : Except Panic WavBrro :=
  if bs.length < 16 then .error .unwrap
  else
    let root := bs.length - 16
    if (addr + root) % 4 ≠ 0 then .error .unwrap
    else match checkVec bs addr root 0 root 8 4 with
      | none => .error .unwrap
      | some (t, n) =>
        match readInner bs addr t n t 0 with
        | none => .error .unwrap
        | some cs => .ok { sampleCount := u32At bs (root + 8), bitdepth := ofLE (sliceAt bs (root + 12) 1), chunks := cs }

/-! ### files -/

/-- The header `WBRO0000WBRO` (write.rs:22). -/
def header : Bytes := [87, 66, 82, 79, 48, 48, 48, 48, 87, 66, 82, 79]

/-- `b"WBRO"`. -/
def wbro : Bytes := [87, 66, 82, 79]

/-- `write_wavbrro_file` (write.rs:21-27): the content of the file after it, when the first `write_at` call wrote `k1` of the 12 header bytes and
the second `k2` bytes of the content.  `write_at` may write fewer bytes than asked (Linux never writes more than 2147479552 at once) and the code
ignores the number it returns; a hole before the content is read as zeros. -/
def writtenFile (k1 k2 : Nat) (content : Bytes) : Bytes :=
  if k2 = 0 ∨ content = [] then header.take k1
  else header.take k1 ++ List.replicate (12 - k1) 0 ++ content.take k2

/-- The file when nothing is cut short. -/
def wholeFile (content : Bytes) : Bytes := writtenFile 12 content.length content

/-- `from_file` (wavbrro.rs:101-109) with `is_wavbrro_file` and `read_wavbrro_file` (read.rs:23-38) on a file with this content; `addr` is the
address of the buffer the content is read into. -/
def fromFile (addr : Nat) (file : Bytes) : Except Panic WbroRead :=
  if file.length < 12 then .ok .ioError
  else if ¬ (sliceAt file 0 4 = wbro ∧ sliceAt file 8 4 = wbro) then .ok .formatError
  else do
    let w ← fromBytes addr (file.drop 12)
    .ok (.samples w.getSamples)

/-- `to_file` (wavbrro.rs:118-121), nothing cut short. -/
def toFile (w : WavBrro) : Except Panic Bytes := do
  let bs ← w.toBytes
  .ok (wholeFile bs)

/-- `to_file_with_data` (wavbrro.rs:112-116), nothing cut short. -/
def toFileWithData (d : List F64) : Except Panic Bytes := (fromSlice d).toFile

end WavBrro
end Atsc
