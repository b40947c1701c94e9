import Verif.Spec.Fft
import Verif.Model.Stream
/- The format of a `.bro` file as a grammar: which bytes stand for what.  Nothing here refers to the decoders. -/
namespace Atsc.Bro

/-- The number little-endian digits to base 256 stand for. -/
def littleEndian (ds : Bytes) : Nat := ds.foldr (fun b n => b.toNat + 256 * n) 0

/-- A number of at most `w` bytes: one byte up to 250, or one of the marks 251, 252, 253 and then two, four, eight little-endian bytes. -/
inductive Number (w : Nat) : Nat → Bytes → Prop
  | byte (b : UInt8) : b.toNat ≤ 250 → Number w b.toNat [b]
  | wide (mark : UInt8) (k : Nat) (ds : Bytes) : (mark, k) ∈ [((251 : UInt8), 2), (252, 4), (253, 8)] → k ≤ w → ds.length = k → Number w (littleEndian ds) (mark :: ds)

/-- A signed number: 0, -1, 1, -2, 2, … are written as 0, 1, 2, 3, 4, … -/
def Signed (w : Nat) (i : Int) (bs : Bytes) : Prop := ∃ n, Number w n bs ∧ (n : Int) = if 0 ≤ i then 2 * i else -2 * i - 1

/-- An `f64`, an `f32`: the bits, little-endian. -/
def Double (x : F64) (bs : Bytes) : Prop := bs.length = 8 ∧ x = FP.ofBits (littleEndian bs)
def Single (x : F32) (bs : Bytes) : Prop := bs.length = 4 ∧ x = FP.ofBits (littleEndian bs)

/-- A list: the number of its elements, then the elements. -/
def Repeated {α : Type} (R : α → Bytes → Prop) (xs : List α) (bs : Bytes) : Prop :=
  ∃ n parts, Number 8 xs.length n ∧ List.Forall₂ R xs parts ∧ bs = n ++ parts.flatten

/-- The codes of the depths. -/
def depthCode : Bitdepth → Nat
  | .f64 => 0
  | .i32 => 1
  | .i16 => 2
  | .u8 => 3

/-- The codes of the compressors. -/
def compressorCode : Compressor → Nat
  | .noop => 0
  | .fft => 1
  | .idw => 2
  | .constant => 3
  | .polynomial => 4
  | .auto => 5
  | .rle => 6

/-- The codes of the two interpolations. -/
def methodCode : PolyType → Nat
  | .polynomial => 0
  | .idw => 1

/-- A sample at a depth. -/
def Sample (bd : Bitdepth) (x : F64) (bs : Bytes) : Prop :=
  match bd with
  | .u8 => ∃ b : UInt8, bs = [b] ∧ x = FP.ofInt b.toNat
  | .i16 => ∃ i, Signed 2 i bs ∧ x = FP.ofInt i
  | .i32 => ∃ i, Signed 4 i bs ∧ x = FP.ofInt i
  | .f64 => Double x bs

/-- A frame: a size (of no consequence), the number of samples, the compressor, the payload. -/
def FramePart (f : Frame) (bs : Bytes) : Prop :=
  ∃ a b c d, bs = a ++ (b ++ (c ++ d)) ∧ Number 8 f.frameSize a ∧ Number 8 f.sampleCount b ∧ Number 4 (compressorCode f.compressor) c ∧
    Repeated (fun x y => y = [x]) f.data d

/-- A file: `BRRO`, the version (four bytes, 0 or 1), a byte, the frames; what follows is of no consequence. -/
def File (bs : Bytes) (frames : List Frame) : Prop :=
  ∃ version count body rest, bs = [66, 82, 82, 79] ++ (version ++ (count :: (body ++ rest))) ∧ version.length = 4 ∧ littleEndian version ≤ 1 ∧
    Repeated FramePart frames body

/-! Payloads.  What follows them is of no consequence, nor is the first byte of the first four. -/

/-- Noop: whole numbers. -/
def NoopPayload (is : List Int) (bs : Bytes) : Prop := ∃ id body rest, bs = id :: (body ++ rest) ∧ Repeated (Signed 8) is body

/-- Constant: one sample. -/
def ConstantPayload (v : F64) (bs : Bytes) : Prop :=
  ∃ id bd d x rest, bs = id :: (d ++ (x ++ rest)) ∧ Number 4 (depthCode bd) d ∧ Sample bd v x

/-- RLE: for each value the positions at which a run of it begins. -/
def RlePayload (runs : List (F64 × List Nat)) (bs : Bytes) : Prop :=
  ∃ id bd d body rest, bs = id :: (d ++ (body ++ rest)) ∧ Number 4 (depthCode bd) d ∧
    Repeated (fun r b => ∃ x is, b = x ++ is ∧ Sample bd r.1 x ∧ Repeated (Number 8) r.2 is) runs body

/-- FFT: frequencies, then the largest and the smallest value. -/
def FftPayload (fs : List FreqPoint) (mx mn : F32) (bs : Bytes) : Prop :=
  ∃ id body a b rest, bs = id :: (body ++ (a ++ (b ++ rest))) ∧
    Repeated (fun f p => ∃ x y z, p = x ++ (y ++ z) ∧ Number 2 f.pos x ∧ Single f.re y ∧ Single f.im z) fs body ∧ Single mx a ∧ Single mn b

/-- Polynomial and IDW: the interpolation, the points, the smallest and the largest value, the step. -/
def PolyPayload (ty : PolyType) (pts : List F64) (mn mx : F64) (step : UInt8) (bs : Bytes) : Prop :=
  ∃ t bd d body a b rest, bs = t ++ (d ++ (body ++ (a ++ (b ++ (step :: rest))))) ∧ Number 4 (methodCode ty) t ∧ Number 4 (depthCode bd) d ∧
    Repeated (Sample bd) pts body ∧ Double mn a ∧ Double mx b

/-- The frames that can be uncompressed. -/
def Decodable (f : Frame) : Prop :=
  match f.compressor with
  | .noop => ∃ is, NoopPayload is f.data
  | .constant => ∃ v, ConstantPayload v f.data
  | .rle => ∃ runs, RlePayload runs f.data
  | .fft => ∃ fs mx mn, FftPayload fs mx mn f.data ∧ (mx.feq mn = true ∨ ∀ N pre, TransformLength f.sampleCount N pre → ∀ p ∈ fs, p.pos < N)
  | .polynomial => ∃ ty pts mn mx step, PolyPayload ty pts mn mx step f.data ∧ (mx.feq mn = true ∨ step ≠ 0)
  | .idw => ∃ ty pts mn mx step, PolyPayload ty pts mn mx step f.data ∧ (mx.feq mn = true ∨ step ≠ 0)
  | .auto => False

/-- The samples runs stand for: at each position the value whose run begins last up to there, zeros before the first run. -/
def RunsGive (n : Nat) (runs : List (F64 × List Nat)) (out : List F64) : Prop :=
  out.length = n ∧ ∀ i < n,
    ((∀ r ∈ runs, ∀ s ∈ r.2, i < s) → out[i]? = some FP.zero) ∧
    ∀ r ∈ runs, ∀ s ∈ r.2, s ≤ i → (∀ r' ∈ runs, ∀ s' ∈ r'.2, s' ≤ i → s' ≤ s) → out[i]? = some r.1

/-- The positions of the points of a polynomial or IDW frame of `n` samples: every `step`-th, and the last. -/
def PointsAt (n step : Nat) (ps : List Nat) : Prop := ps.Pairwise (· < ·) ∧ ∀ x, x ∈ ps ↔ x < n ∧ (step ∣ x ∨ x + 1 = n)

/-- The keys of the spline through points: Catmull-Rom except at the first and from the last but one on. -/
def KeysOf (ps : List Nat) (pts : List F64) (keys : List SplineKey) : Prop :=
  keys.length = min ps.length pts.length ∧ ∀ (k p : Nat) (v : F64), ps[k]? = some p → pts[k]? = some v →
    keys[k]? = some { t := F64.lit p, value := v, catmullRom := decide (1 ≤ k ∧ k + 2 < ps.length) }

/-- What the interpolation through the points gives at the positions below `n`; where the spline has no value, the one before it counts, and at first the smallest value. -/
def Interpolates (E : Ext) (ty : PolyType) (n : Nat) (ps : List Nat) (pts : List F64) (mn : F64) (w : Nat → F64) : Prop :=
  match ty with
  | .idw => ∀ i < n, w i = E.idw (ps.map fun p : Nat => F64.lit p) pts (F64.lit i)
  | .polynomial => ∃ keys, KeysOf ps pts keys ∧ ∀ i < n, w i = (E.spline keys (F64.lit i)).getD (if i = 0 then mn else w (i - 1))

end Atsc.Bro
