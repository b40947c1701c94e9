import Verif.Model.Poly
import Verif.Model.Fft
/- Model of /repo/atsc/src/compressor/mod.rs: the dispatch over compressors. -/
namespace Atsc

/-- `enum Compressor` (/repo/atsc/src/compressor/mod.rs:34-44). -/
inductive Compressor where
  | noop | fft | idw | constant | polynomial | auto | rle
  deriving DecidableEq, Repr

/-- Derived `Encode` of `Compressor` (mod.rs:34): the variant index as a u32. -/
def encCompressor : Compressor → Bytes
  | .noop => encVar 0 | .fft => encVar 1 | .idw => encVar 2 | .constant => encVar 3
  | .polynomial => encVar 4 | .auto => encVar 5 | .rle => encVar 6
/-- Derived `Decode` of `Compressor` (mod.rs:34). -/
def decCompressor : Dec Compressor := decU32.bind fun n =>
  match n with
  | 0 => Dec.pure .noop | 1 => Dec.pure .fft | 2 => Dec.pure .idw | 3 => Dec.pure .constant
  | 4 => Dec.pure .polynomial | 5 => Dec.pure .auto | 6 => Dec.pure .rle
  | _ => Dec.fail

/-- `Compressor::compress` (mod.rs:63-74). -/
def Compressor.compress (E : Ext) (c : Compressor) (data : List F64) : Except Panic Bytes := do
  let st ← DataStats.new data
  match c with
  | .noop => .ok (Atsc.noop data)
  | .fft => fftPlain E data
  | .constant => .ok (constantCompressor data st).data
  | .polynomial => Atsc.polynomial data .polynomial
  | .idw => Atsc.polynomial data .idw
  | .rle => .ok (rleCompressor data st).data
  | .auto => .error .todo

/-- `Compressor::get_compress_bounded_results` (mod.rs:94-107). -/
def Compressor.boundedResults (E : Ext) (c : Compressor) (data : List F64) (maxErr : F64) : Except Panic CResult := do
  let st ← DataStats.new data
  match c with
  | .noop => .ok { data := Atsc.noop data, error := FP.zero }
  | .fft => fftCompressor E data maxErr st
  | .constant => .ok (constantCompressor data st)
  | .rle => .ok (rleCompressor data st)
  | .polynomial => polynomialAllowedError E data maxErr .polynomial
  | .idw => polynomialAllowedError E data maxErr .idw
  | .auto => .error .todo

/-- `Compressor::compress_bounded` (mod.rs:76-92). -/
def Compressor.compressBounded (E : Ext) (c : Compressor) (data : List F64) (maxErr : F64) : Except Panic Bytes := do
  let st ← DataStats.new data
  match c with
  | .noop => .ok (Atsc.noop data)
  | .fft => do
    let r ← fftCompressor E data maxErr st
    .ok r.data
  | .constant => .ok (constantCompressor data st).data
  | .polynomial => do
    let r ← polynomialAllowedError E data maxErr .polynomial
    .ok r.data
  | .idw => do
    let r ← polynomialAllowedError E data maxErr .idw
    .ok r.data
  | .rle => .ok (rleCompressor data st).data
  | .auto => .error .todo

/-- `Compressor::decompress` (mod.rs:109-119). -/
def Compressor.decompress (E : Ext) (c : Compressor) (samples : Nat) (bs : Bytes) : Except Panic (List F64) :=
  match c with
  | .noop => noopToData samples bs
  | .fft => fftToData E samples bs
  | .constant => constantToData samples bs
  | .polynomial => polyToData E samples bs
  | .idw => polyToData E samples bs
  | .rle => rleToData samples bs
  | .auto => .error .todo

end Atsc
