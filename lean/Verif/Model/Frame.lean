import Verif.Model.Compressor
/- Model of /repo/atsc/src/frame/mod.rs. -/
namespace Atsc

/-- `struct CompressorFrame` (/repo/atsc/src/frame/mod.rs:25-33).  The two `usize` fields are naturals below `2^64`. -/
structure Frame where
  frameSize : Nat
  sampleCount : Nat
  compressor : Compressor
  data : Bytes
  deriving DecidableEq

/-- Derived `Encode` of `CompressorFrame` (frame/mod.rs:24): the fields in order. -/
def Frame.enc (f : Frame) : Bytes :=
  encVar f.frameSize ++ encVar f.sampleCount ++ encCompressor f.compressor ++ encVec encU8 f.data
/-- Derived `Decode` of `CompressorFrame`. -/
def Frame.dec : Dec Frame :=
  decU64.bind fun fs => decU64.bind fun sc => decCompressor.bind fun c => (decVec decU8).bind fun d =>
    Dec.pure { frameSize := fs, sampleCount := sc, compressor := c, data := d }

/-- `COMPRESSION_SPEED` (frame/mod.rs:22). -/
def compressionSpeed : List Nat := [2 ^ 31 - 1, 4096, 2048, 1024, 512, 256, 128]

/-- `CompressorFrame::new` (frame/mod.rs:39-46): the default compressor is `Noop`. -/
def Frame.new (c : Option Compressor) : Frame :=
  { frameSize := 0, sampleCount := 0, compressor := c.getD .noop, data := [] }

/-- `CompressorFrame::close` (frame/mod.rs:50-56): `size_of_val` of two `usize` (8 each), the enum (1) and the `Vec` (24). -/
def Frame.close (f : Frame) : Frame := { f with frameSize := 8 + 1 + 24 + 8 }

/-- `CompressorFrame::compress` (frame/mod.rs:59-62). -/
def Frame.compress (E : Ext) (f : Frame) (data : List F64) : Except Panic Frame := do
  let d ← f.compressor.compress E data
  .ok { f with sampleCount := data.length, data := d }

/-- `CompressorFrame::compress_bounded` (frame/mod.rs:65-68): the `f32` bound is widened to `f64`. -/
def Frame.compressBounded (E : Ext) (f : Frame) (data : List F64) (maxErr : F32) : Except Panic Frame := do
  let d ← f.compressor.compressBounded E data (FP.cvt maxErr)
  .ok { f with sampleCount := data.length, data := d }

/-- The eligible compressors (frame/mod.rs:77). -/
def candidates : List Compressor := [.fft, .polynomial, .rle]

/-- Run every candidate on `data` (frame/mod.rs:96-104, 117-126). -/
def runAll (E : Ext) (data : List F64) (maxErr : F64) : List Compressor → Except Panic (List (CResult × Compressor))
  | [] => .ok []
  | c :: cs => do
    let r ← c.boundedResults E data maxErr
    let rs ← runAll E data maxErr cs
    .ok ((r, c) :: rs)

/-- `Iterator::min_by_key(|x| x.0.compressed_data.len())`: the first of the smallest elements. -/
def minByLen : List (CResult × Compressor) → Option (CResult × Compressor)
  | [] => none
  | x :: xs => some (xs.foldl (fun b y => if y.1.data.length < b.1.data.length then y else b) x)

/-- `.unwrap()` of an `Option`. -/
def unwrapOpt {α : Type} : Option α → Except Panic α
  | some a => .ok a
  | none => .error .unwrap

/-- `CompressorFrame::compress_best` (frame/mod.rs:71-150). -/
def Frame.compressBest (E : Ext) (f : Frame) (data : List F64) (maxErr : F32) (speed : Nat) : Except Panic Frame :=
  match compressionSpeed[speed]? with
  | none => .error .index
  | some dataSample => do
    let me : F64 := FP.cvt maxErr
    let st ← DataStats.new data
    if st.min.feq st.max then do
      let r ← Compressor.boundedResults E .constant data me
      .ok { f with sampleCount := data.length, compressor := .constant, data := r.data }
    else if data.length ≥ dataSample then do
      let rs ← runAll E (data.take dataSample) me candidates
      let best ← unwrapOpt (minByLen (rs.filter fun x => x.1.error.le me))
      let r ← best.2.boundedResults E data me
      .ok { f with sampleCount := data.length, compressor := best.2, data := r.data }
    else do
      let rs ← runAll E data me candidates
      let best ← unwrapOpt
        (if rs.all fun x => !(x.1.error.le me) then minByLen rs
         else minByLen (rs.filter fun x => x.1.error.le me))
      .ok { f with sampleCount := data.length, compressor := best.2, data := best.1.data }

/-- `CompressorFrame::decompress` (frame/mod.rs:152-158). -/
def Frame.decompress (E : Ext) (f : Frame) : Except Panic (List F64) :=
  f.compressor.decompress E f.sampleCount f.data

end Atsc
