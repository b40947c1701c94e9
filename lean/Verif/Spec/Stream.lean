import Verif.Model.Stream
/- Specification vocabulary for streams: histories of calls on the public API of `CompressedStream`. -/
namespace Atsc

/-- One call of the public chunk-compression API of `CompressedStream` (/repo/atsc/src/data.rs:38-76). -/
inductive ChunkOp where
  /-- `compress_chunk(chunk)` -/
  | plain (chunk : List F64)
  /-- `compress_chunk_with(chunk, compressor)` -/
  | using (chunk : List F64) (c : Compressor)
  /-- `compress_chunk_bounded_with(chunk, compressor, max_error, speed)` -/
  | bounded (chunk : List F64) (c : Compressor) (maxErr : F32) (speed : Nat)

/-- The samples handed to the call. -/
def ChunkOp.chunk : ChunkOp → List F64
  | .plain d => d
  | .using d _ => d
  | .bounded d _ _ _ => d

/-- Perform one call. -/
def ChunkOp.apply (E : Ext) (p : Profile) (s : Stream) : ChunkOp → Except Panic Stream
  | .plain d => s.compressChunk E p d
  | .using d c => s.compressChunkWith E p d c
  | .bounded d c e k => s.compressChunkBoundedWith E p d c e k

/-- Perform a sequence of calls, stopping at the first panic. -/
def Stream.runOps (E : Ext) (p : Profile) : Stream → List ChunkOp → Except Panic Stream
  | s, [] => .ok s
  | s, op :: ops =>
    match op.apply E p s with
    | .ok s' => s'.runOps E p ops
    | .error e => .error e

/-- `s` is the stream obtained from a new one by the calls `ops`, none of which panicked. -/
def Built (E : Ext) (p : Profile) (ops : List ChunkOp) (s : Stream) : Prop := Stream.new.runOps E p ops = .ok s

/-- The call succeeds on the stream `s` and adds the frame `g` at its end. -/
def ChunkOp.Adds (E : Ext) (p : Profile) (s : Stream) (op : ChunkOp) (g : Frame) : Prop :=
  ∃ s', op.apply E p s = .ok s' ∧ s'.frames = s.frames ++ [g]

/-- The frame counter of the stream is not at the point where a debug build panics. -/
def HasRoom (p : Profile) (s : Stream) : Prop := p = .debug → s.header.frameCount ≠ 255

/-- What one call alone stores and then decompresses to: a new stream with that single chunk. -/
def ChunkOp.alone (E : Ext) (p : Profile) (op : ChunkOp) : Except Panic (List F64) :=
  match op.apply E p Stream.new with
  | .ok s => s.decompress E
  | .error e => .error e

/-- Run a list of computations in order and concatenate what they return; the first panic wins. -/
def concatOk {α β : Type} (f : α → Except Panic (List β)) : List α → Except Panic (List β)
  | [] => .ok []
  | x :: xs =>
    match f x, concatOk f xs with
    | .ok a, .ok b => .ok (a ++ b)
    | .error e, _ => .error e
    | .ok _, .error e => .error e

/-- The stream's bytes and its counters fit a 64-bit address space. -/
def FitsMemory (s : Stream) : Prop :=
  s.toBytes.length < 2 ^ 64 ∧ ∀ f ∈ s.frames, f.frameSize < 2 ^ 64 ∧ f.sampleCount < 2 ^ 64

end Atsc
