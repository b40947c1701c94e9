import Verif.Model.Compressor
/- Specification vocabulary: how many bytes a payload may take. -/
namespace Atsc

/-- Number of maximal runs of equal samples. -/
def runCount : List F64 → Nat
  | [] => 0
  | [_] => 1
  | v :: w :: rest => (if w.feq v then 0 else 1) + runCount (w :: rest)

/-- Most bytes the payload of a frame may take: a constant for Constant, nine bytes a sample for Noop, fourteen bytes a run for RLE, eight bytes a sample for the
interpolations, and 11 bytes for each of at most `n / 10 + 25` frequencies for FFT. -/
def Compressor.maxPayload (c : Compressor) (data : List F64) : Nat :=
  match c with
  | .constant => 10
  | .noop => 6 + 9 * data.length
  | .rle => 7 + 14 * runCount data
  | .polynomial | .idw => 24 + 8 * data.length
  | .fft => 14 + 11 * (data.length / 10 + 25)
  | .auto => 0

end Atsc
