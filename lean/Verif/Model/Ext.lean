import Verif.Model.Float
/-
External libraries whose source is not in the sandbox.  A value of `Ext` fixes what these functions return;
every theorem that mentions them quantifies over all of `Ext`, or states the laws it needs (`Ext.Lawful`) as hypotheses.
-/
namespace Atsc

/-- `num_complex::Complex<f32>`. -/
structure C32 where
  re : F32
  im : F32
  deriving DecidableEq

/-- `struct FrequencyPoint` (/repo/atsc/src/compressor/fft.rs:33-39). -/
structure FreqPoint where
  pos : Nat
  re : F32
  im : F32
  deriving DecidableEq

/-- A spline key: position, value, and whether its interpolation is CatmullRom (else Linear). -/
structure SplineKey where
  t : F64
  value : F64
  catmullRom : Bool

structure Ext where
  /-- `rustfft` forward transform of a whole buffer (`planner.plan_fft_forward(len).process`) -/
  fftFwd : List C32 → List C32
  /-- `rustfft` inverse transform (not normalised) -/
  fftInv : List C32 → List C32
  /-- `Complex::norm` -/
  norm : C32 → F32
  /-- `splines::Spline::from_vec(keys).clamped_sample(t)` -/
  spline : List SplineKey → F64 → Option F64
  /-- `IDW::new(points, values).evaluate(t)` -/
  idw : List F64 → List F64 → F64 → F64

/-- What the documentation of the libraries promises: in-place transforms keep the buffer length. -/
structure Ext.Lawful (E : Ext) : Prop where
  fwd_len : ∀ b, (E.fftFwd b).length = b.length
  inv_len : ∀ b, (E.fftInv b).length = b.length

end Atsc
