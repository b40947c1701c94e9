import Verif.Spec.Float
import Verif.Model.Compressor
/- Specification vocabulary for the FFT compressor. -/
namespace Atsc

/-- `m` is of the form `2^a * 3^b`. -/
def IsSmooth (m : Nat) : Prop := ∃ a b, m = 2 ^ a * 3 ^ b

/-- `g` is the series the transform works on and `pre` the number of samples put in front: the chunk itself below 128 samples,
else the chunk extended on both sides (by its first and its last sample, half of the extension in front) to the next
length of the form `2^a * 3^b`. -/
def PaddedChunk (data g : List F64) (pre : Nat) : Prop :=
  (data.length < 128 ∧ g = data ∧ pre = 0) ∨
  (128 ≤ data.length ∧ ∃ first last suf, data.head? = some first ∧ data.getLast? = some last ∧
    g = List.replicate pre first ++ data ++ List.replicate suf last ∧
    IsLeast {m | data.length < m ∧ IsSmooth m} g.length ∧ pre = (g.length - data.length) / 2)

/-- The spectrum of a series as the library computes it from the samples cast to single precision. -/
def Ext.spectrum (E : Ext) (g : List F64) : List C32 := E.fftFwd (g.map fun x => { re := FP.cvt x, im := FP.zero })

/-- The frame `bs` stores frequencies of the spectrum `sp` faithfully: at distinct positions of its first half, each with the
value of the bin at that position. -/
def StoresBins (sp : List C32) (bs : Bytes) : Prop :=
  ∃ c, unwrapDec Fft.dec bs = .ok c ∧ (c.frequencies.map (·.pos)).Nodup ∧
    ∀ f ∈ c.frequencies, f.pos < sp.length / 2 + 1 ∧ sp[f.pos]? = some { re := f.re, im := f.im }

/-- `b` is the complex conjugate of `a` (a NaN imaginary part is only asked to have the real part right). -/
def C32.IsConj (a b : C32) : Prop := b.re = a.re ∧ (a.im.isNaN = false → b.im = a.im.neg)

/-- `sp` is the spectrum of length `n` with the stored frequencies at their positions, their conjugates mirrored around the middle, and
zero everywhere else.  (When `n` is even the middle bin is its own mirror image and holds the conjugate.) -/
structure MirrorSpectrum (fs : List FreqPoint) (n : Nat) (sp : List C32) : Prop where
  len : sp.length = n
  kept : ∀ f ∈ fs, 2 * f.pos ≠ n → sp[f.pos]? = some { re := f.re, im := f.im }
  mirror : ∀ f ∈ fs, f.pos ≠ 0 → ∃ b, sp[n - f.pos]? = some b ∧ C32.IsConj { re := f.re, im := f.im } b
  rest : ∀ i < n, (∀ f ∈ fs, i ≠ f.pos ∧ (f.pos ≠ 0 → i ≠ n - f.pos)) → sp[i]? = some { re := FP.zero, im := FP.zero }

/-- `N` is the transform length for a frame of `n` samples and `pre` the number of samples in front of it. -/
def TransformLength (n N pre : Nat) : Prop :=
  (n < 128 ∧ N = n ∧ pre = 0) ∨ (128 ≤ n ∧ IsLeast {m | n < m ∧ IsSmooth m} N ∧ pre = (N - n) / 2)

/-- `y` is `w` rounded to five decimals and limited to `[lo, hi]`: never outside the limits, and when `w` is finite, within half a unit of the
fifth decimal (up to a relative float error of `2^-51`) of what limiting `w` itself gives. -/
def RoundedWithin (lo hi w y : F64) : Prop :=
  (y.isNaN = false → lo.le y = true ∧ y.le hi = true) ∧
  (w.isFinite = true → |w.val| ≤ 2 ^ 900 → y.isNaN = false ∧ |y.val - max lo.val (min w.val hi.val)| ≤ 1 / (2 * 10 ^ 5) + (|w.val| + 1) / 2 ^ 51)

/-- A spectrum is that of a real series: bin `n - i` is the conjugate of bin `i`, as numbers, and none is NaN. -/
structure Hermitian (sp : List C32) : Prop where
  finite : ∀ z ∈ sp, z.re.isNaN = false ∧ z.im.isNaN = false
  sym : ∀ i, 0 < i → i < sp.length → ∀ a b, sp[i]? = some a → sp[sp.length - i]? = some b →
    a.re.feq b.re = true ∧ a.im.feq b.im.neg = true

/-- The same bins, as numbers. -/
def SameBins (a b : List C32) : Prop :=
  a.length = b.length ∧ ∀ (i : Nat) (x y : C32), a[i]? = some x → b[i]? = some y → y.re.feq x.re = true ∧ y.im.feq x.im = true

/-- On this series the library's inverse transform, divided by the length, undoes its forward transform up to `ε`.  A law about the FFT
library, only used as an explicit hypothesis. -/
def Ext.InvertsWithin (E : Ext) (g : List F64) (ε : ℚ) : Prop :=
  ∀ sp, SameBins (E.spectrum g) sp → ∀ (i : Nat) (x : F64), g[i]? = some x →
    ∃ z, (E.fftInv sp)[i]? = some z ∧ (z.re.div (FP.ofInt g.length)).isFinite = true ∧ |(z.re.div (FP.ofInt g.length)).val - x.val| ≤ ε

/-- The library's norm of a non-zero bin is larger than that of a zero bin.  A law, only used as an explicit hypothesis. -/
def Ext.NormSeparates (E : Ext) : Prop :=
  ∀ z w : C32, z.re.feq FP.zero = true → z.im.feq FP.zero = true → ¬ (w.re.feq FP.zero = true ∧ w.im.feq FP.zero = true) →
    (E.norm w).isNaN = false → (E.norm z).lt (E.norm w) = true

/-- `fs` are the `k` (or fewer) largest non-zero ones among `all`. -/
structure Largest (norm : FreqPoint → F32) (k : Nat) (all fs : List FreqPoint) : Prop where
  count : fs.length ≤ k
  nonzero : ∀ f ∈ fs, ¬ (f.re.feq FP.zero = true ∧ f.im.feq FP.zero = true)
  rest : ∃ dropped, (fs ++ dropped).Perm all ∧ (∀ f ∈ fs, ∀ g ∈ dropped, (norm f).lt (norm g) = false) ∧
    (fs.length < k → dropped ≠ [] → ∃ g ∈ dropped, g.re.feq FP.zero = true ∧ g.im.feq FP.zero = true)

end Atsc
