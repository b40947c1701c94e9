import Verif.Model.Stream
import Verif.Model.Optimizer
/- Model of the `compress_data` / `decompress_data` pipeline of /repo/atsc/src/main.rs and of
/repo/atsc/src/utils/readers/bro_reader.rs. -/
namespace Atsc

/-- `enum CompressorType` (/repo/atsc/src/main.rs:222-232). -/
inductive CompressorType where
  | auto | noop | fft | constant | polynomial | idw | rle
  deriving DecidableEq, Repr

/-- The selection `match` (main.rs:137-145). -/
def CompressorType.toCompressor : CompressorType → Compressor
  | .noop => .noop | .constant => .constant | .rle => .rle | .fft => .fft
  | .polynomial => .polynomial | .idw => .idw | .auto => .auto

/-- The arguments `compress_data` reads: `compressor`, `error` (clap allows 0..=50) and
`compression_selection_sample_level` (clap allows 0..=6) (main.rs:176-219). -/
structure CompArgs where
  compressor : CompressorType
  error : Nat
  level : Nat

/-- `arguments.error as f32 / 100.0` (main.rs:157). -/
def CompArgs.bound (a : CompArgs) : F32 := (FP.ofInt (a.error : Int) : F32).div (FP.ofInt 100)

/-- Body of the frame loop (main.rs:146-163). -/
def compressOne (E : Ext) (p : Profile) (a : CompArgs) (s : Stream) (x : Compressor × List F64) : Except Panic Stream :=
  match a.compressor with
  | .fft | .polynomial | .idw | .auto => s.compressChunkBoundedWith E p x.2 x.1 a.bound a.level
  | _ => s.compressChunkWith E p x.2 x.1

/-- The frame loop (main.rs:146-163). -/
def compressLoop (E : Ext) (p : Profile) (a : CompArgs) : Stream → List (Compressor × List F64) → Except Panic Stream
  | s, [] => .ok s
  | s, x :: xs => do
    let s' ← compressOne E p a s x
    compressLoop E p a s' xs

/-- `compress_data` (main.rs:130-165). -/
def compressData (E : Ext) (p : Profile) (vec : List F64) (a : CompArgs) : Except Panic Bytes := do
  let op ← Plan.plan vec
  let ex ← (op.setCompressor a.compressor.toCompressor).getExecution
  let s ← compressLoop E p a Stream.new ex
  .ok s.toBytes

/-- `decompress_data` (main.rs:168-172). -/
def decompressData (E : Ext) (bs : Bytes) : Except Panic (List F64) := do
  let s ← Stream.fromBytes bs
  s.decompress E

/-- Outcome of `bro_reader::read_file` on the content of an existing, readable file
(/repo/atsc/src/utils/readers/bro_reader.rs:31-46). -/
inductive BroRead where
  /-- `Err(UnexpectedEof)`: `read_exact` of the 12 header bytes fails -/
  | eof
  /-- `Ok(None)`: not a BRRO file, it is skipped -/
  | notBro
  /-- `Ok(Some(bytes))` -/
  | bytes (bs : Bytes)
  deriving DecidableEq

def broRead (content : Bytes) : BroRead :=
  if content.length < 12 then .eof
  else if content.take 4 = brro then .bytes content
  else .notBro

end Atsc
