import Verif.Model.Frame
/- Specification vocabulary for the automatic choice of a compressor. -/
namespace Atsc

/-- How many samples a speed level uses to choose (README and /repo/atsc/src/frame/mod.rs:22): a chunk with fewer samples is
tried as a whole. -/
def sampleSize : Nat → Nat
  | 0 => 2147483647 | 1 => 4096 | 2 => 2048 | 3 => 1024 | 4 => 512 | 5 => 256 | _ => 128

/-- The candidates, in order of preference on equal size: FFT, then Polynomial, then RLE. -/
def Compressor.rank : Compressor → Option Nat
  | .fft => some 0 | .polynomial => some 1 | .rle => some 2 | _ => none

/-- Candidate `c`, run on `data`, reports the error `err` and produces the bytes `bs`. -/
def Produces (E : Ext) (c : Compressor) (data : List F64) (e : F64) (bs : Bytes) (err : F64) : Prop :=
  c.rank.isSome ∧ ∃ r, c.boundedResults E data e = .ok r ∧ r.data = bs ∧ r.error = err

/-- `c` is the candidate a careful user would pick: within the bound, no candidate within the bound is smaller, and on equal
size the preferred one. -/
def SmallestWithin (E : Ext) (c : Compressor) (data : List F64) (e : F64) (bs : Bytes) : Prop :=
  (∃ err, Produces E c data e bs err ∧ err.le e = true) ∧
  ∀ c' bs' err', Produces E c' data e bs' err' → err'.le e = true →
    bs.length ≤ bs'.length ∧ (∀ i j, c'.rank = some i → c.rank = some j → i < j → bs.length < bs'.length)

end Atsc
