import Verif.Model.Frame
/- Model of /repo/atsc/src/header.rs and /repo/atsc/src/data.rs. -/
namespace Atsc

/-- `struct CompressorHeader` (/repo/atsc/src/header.rs:24-28). -/
structure Header where
  version : UInt32
  frameCount : UInt8
  deriving DecidableEq

/-- `CURRENT_VERSION` (header.rs:23). -/
def currentVersion : UInt32 := 1

/-- `CompressorHeader::new` (header.rs:45-50). -/
def Header.new : Header := { version := currentVersion, frameCount := 0 }

/-- `CompressorHeader::add_frame` (header.rs:52-54): `u8 += 1` panics at 255 in a debug build and wraps in a release build. -/
def Header.addFrame (p : Profile) (h : Header) : Except Panic Header :=
  if h.frameCount = 255 ∧ p = .debug then .error .overflow
  else .ok { h with frameCount := h.frameCount + 1 }

/-- The bytes `BRRO`. -/
def brro : Bytes := [66, 82, 82, 79]

/-- `CompressorHeader::to_bytes` (header.rs:60-67). -/
def Header.toBytes (h : Header) : Bytes := brro ++ leBytes 4 h.version.toNat ++ [h.frameCount]

/-- `CompressorHeader::from_bytes` (header.rs:69-85) with `verify_header_versions` (30-42), on the 9 bytes it is given. -/
def Header.fromBytes (data : Bytes) : Except Panic Header :=
  if data.take 4 ≠ brro then .error .explicit
  else
    let version := UInt32.ofNat (ofLE ((data.drop 4).take 4))
    if currentVersion < version then .error .explicit
    else
      match data[8]? with
      | none => .error .index
      | some fc => .ok { version := version, frameCount := fc }

/-- `struct CompressedStream` (/repo/atsc/src/data.rs:23-27). -/
structure Stream where
  header : Header
  frames : List Frame
  deriving DecidableEq

/-- `CompressedStream::new` (data.rs:30-35). -/
def Stream.new : Stream := { header := Header.new, frames := [] }

/-- The common tail of the three `compress_chunk*` functions: close, push, count (data.rs:41-43, 50-52, 73-75). -/
def Stream.push (p : Profile) (s : Stream) (f : Frame) : Except Panic Stream := do
  let h ← s.header.addFrame p
  .ok { header := h, frames := s.frames ++ [f.close] }

/-- `compress_chunk` (data.rs:38-44). -/
def Stream.compressChunk (E : Ext) (p : Profile) (s : Stream) (chunk : List F64) : Except Panic Stream := do
  let f ← (Frame.new none).compress E chunk
  s.push p f

/-- `compress_chunk_with` (data.rs:47-53). -/
def Stream.compressChunkWith (E : Ext) (p : Profile) (s : Stream) (chunk : List F64) (c : Compressor) :
    Except Panic Stream := do
  let f ← (Frame.new (some c)).compress E chunk
  s.push p f

/-- `compress_chunk_bounded_with` (data.rs:56-76). -/
def Stream.compressChunkBoundedWith (E : Ext) (p : Profile) (s : Stream) (chunk : List F64) (c : Compressor)
    (maxErr : F32) (speed : Nat) : Except Panic Stream := do
  let f0 := Frame.new (some c)
  let f ← (match c with
    | .auto => f0.compressBest E chunk maxErr speed
    | _ => f0.compressBounded E chunk maxErr)
  s.push p f

/-- `CompressedStream::to_bytes` (data.rs:79-85). -/
def Stream.toBytes (s : Stream) : Bytes := s.header.toBytes ++ encVec Frame.enc s.frames

/-- `CompressedStream::from_bytes` (data.rs:89-103). `split_at(9)` panics on fewer than 9 bytes. -/
def Stream.fromBytes (data : Bytes) : Except Panic Stream :=
  if data.length < 9 then .error .index
  else do
    let h ← Header.fromBytes (data.take 9)
    let fs ← unwrapDec (decVec Frame.dec) (data.drop 9)
    .ok { header := h, frames := fs }

/-- `flat_map(|f| f.decompress())` on the frames. -/
def decompressAll (E : Ext) : List Frame → Except Panic (List F64)
  | [] => .ok []
  | f :: fs => do
    let a ← f.decompress E
    let b ← decompressAll E fs
    .ok (a ++ b)

/-- `CompressedStream::decompress` (data.rs:104-109). -/
def Stream.decompress (E : Ext) (s : Stream) : Except Panic (List F64) := decompressAll E s.frames

end Atsc
