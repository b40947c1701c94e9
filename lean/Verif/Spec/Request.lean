import Verif.Spec.Stream
import Verif.Model.Cli
/- Specification vocabulary: what a request for a compressor may leave in the file. -/
namespace Atsc

/-- The compressors a frame may be tagged with, for each choice of `--compressor`. -/
def CompressorType.Allows : CompressorType → Compressor → Prop
  | .noop, c => c = .noop
  | .constant, c => c = .constant
  | .rle, c => c = .rle
  | .fft, c => c = .fft
  | .polynomial, c => c = .polynomial
  | .idw, c => c = .idw
  | .auto, c => c = .constant ∨ c = .fft ∨ c = .polynomial ∨ c = .rle

/-- The first byte of a frame's payload, by compressor (`NOOP_COMPRESSOR_ID` 250, `FFT_COMPRESSOR_ID` 15, `CONSTANT_COMPRESSOR_ID` 30,
`RLE_COMPRESSOR_ID` 60, and the variant number of `PolynomialType`). -/
def Compressor.payloadId : Compressor → Option UInt8
  | .noop => some 250 | .fft => some 15 | .constant => some 30 | .rle => some 60 | .polynomial => some 0 | .idw => some 1 | .auto => none

/-- The library call the command line is expected to make for one chunk, given the bound `e`: plain compression for the exact compressors, bounded
compression for the others. -/
def CompressorType.call (t : CompressorType) (chunk : List F64) (e : F32) (level : Nat) : ChunkOp :=
  match t with
  | .noop => .using chunk .noop
  | .constant => .using chunk .constant
  | .rle => .using chunk .rle
  | .fft => .bounded chunk .fft e level
  | .polynomial => .bounded chunk .polynomial e level
  | .idw => .bounded chunk .idw e level
  | .auto => .bounded chunk .auto e level

end Atsc
