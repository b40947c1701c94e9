import Verif.Model.Utils
import Verif.Model.Simple
import Verif.Model.Ext
import Verif.Model.Heap
import Verif.Model.Poly
/- Model of /repo/atsc/src/compressor/fft.rs. -/
namespace Atsc

/-- `FrequencyPoint::from_complex_with_position(c, pos as u16)` (fft.rs:42-48, 242). -/
def FreqPoint.of (c : C32) (pos : Nat) : FreqPoint := { pos := pos % 65536, re := c.re, im := c.im }
/-- `to_complex` (fft.rs:50-55). -/
def FreqPoint.toComplex (f : FreqPoint) : C32 := { re := f.re, im := f.im }
/-- `to_inv_complex` (fft.rs:57-62). -/
def FreqPoint.toInvComplex (f : FreqPoint) : C32 := { re := f.re, im := f.im.mul (FP.ofInt (-1)) }

/-- `PartialEq` and `Ord` of `FrequencyPoint` (fft.rs:65-106): `==` of the norms, `Greater` if the first is larger, else `Less`.
The norm is `num_complex`'s (`E.norm`). -/
def freqCmp (norm : C32 → F32) (a b : FreqPoint) : Ordering :=
  if (norm a.toComplex).feq (norm b.toComplex) then .eq
  else if (norm b.toComplex).lt (norm a.toComplex) then .gt else .lt

/-- `BinaryHeap::from(v)` and all its `pop`s (fft.rs:244-248). -/
def Ext.heapPops (E : Ext) (l : List FreqPoint) : List FreqPoint := Heap.pops (freqCmp E.norm) l

/-- `struct FFT` (fft.rs:109-116). -/
structure Fft where
  id : UInt8
  frequencies : List FreqPoint
  maxValue : F32
  minValue : F32
  error : Option F64

/-- derived codec of `FrequencyPoint` -/
def FreqPoint.enc (f : FreqPoint) : Bytes := encVar f.pos ++ encF32 f.re ++ encF32 f.im
def FreqPoint.dec : Dec FreqPoint :=
  decU16.bind fun p => decF32.bind fun re => decF32.bind fun im => Dec.pure { pos := p, re := re, im := im }

/-- `Encode for FFT` (fft.rs:119-130). -/
def Fft.enc (c : Fft) : Bytes := encU8 c.id ++ encVec FreqPoint.enc c.frequencies ++ encF32 c.maxValue ++ encF32 c.minValue
/-- `Decode for FFT` (fft.rs:132-158). -/
def Fft.dec : Dec Fft :=
  decU8.bind fun id => (decVec FreqPoint.dec).bind fun fs => decF32.bind fun mx => decF32.bind fun mn =>
    Dec.pure { id := id, frequencies := fs, maxValue := mx, minValue := mn, error := none }

/-- `FFT::new` (fft.rs:162-171); `f64_to_f32` (173-180) is the `as f32` cast. -/
def Fft.new (min max : F64) : Fft :=
  { id := 15, frequencies := [], maxValue := FP.cvt max, minValue := FP.cvt min, error := none }

/-- `gibbs_sizing` (fft.rs:184-204). -/
def gibbsSizing (data : List F64) : List F64 :=
  let added := nextSize data.length - data.length
  let pre := added / 2
  let suf := added - pre
  match data.head?, data.getLast? with
  | some f, some l => List.replicate pre f ++ data ++ List.replicate suf l
  | _, _ => []

/-- `FFT::round` (fft.rs:208-218). -/
def Fft.round (c : Fft) (x : F32) (decimals : Nat) : F64 :=
  let y := F64.lit (10 ^ decimals)
  let out := (((FP.cvt x : F64).mul y).round).div y
  if (FP.cvt c.maxValue : F64).lt out then FP.cvt c.maxValue
  else if out.lt (FP.cvt c.minValue : F64) then FP.cvt c.minValue
  else out

/-- `FFT::optimize` (fft.rs:221-228). -/
def fftOptimize (data : List F64) : List C32 := data.map fun x => { re := FP.cvt x, im := FP.zero }

/-- `fft_trim` (fft.rs:231-257). `buffer[0]` panics on an empty buffer. -/
def fftTrim (E : Ext) (buffer : List C32) (maxFreq : Nat) : Except Panic (List FreqPoint) :=
  if maxFreq = 1 then
    match buffer with
    | [] => .error .index
    | b :: _ => .ok [FreqPoint.of b 0]
  else
    let pts := buffer.mapIdx fun pos b => FreqPoint.of b pos
    .ok (((E.heapPops pts).take maxFreq).takeWhile fun f => !(f.im.feq FP.zero && f.re.feq FP.zero))

/-- The transformed and halved buffer (fft.rs:274-280, 315-328, 380-386). -/
def fftHalf (E : Ext) (data : List F64) : List C32 :=
  let b := E.fftFwd (fftOptimize data)
  b.take (b.length / 2 + 1)

/-- `compress_hinted` (fft.rs:262-282). -/
def Fft.compressHinted (E : Ext) (c : Fft) (data : List F64) (maxFreq : Nat) : Except Panic Fft :=
  if c.maxValue.feq c.minValue then .ok c
  else do
    let fs ← fftTrim E (fftHalf E data) maxFreq
    .ok { c with frequencies := fs }

/-- `FFT::compress` (fft.rs:366-388); `max_freq` is computed as `baselinePoints`. -/
def Fft.compress (E : Ext) (c : Fft) (data : List F64) : Except Panic Fft :=
  c.compressHinted E data (baselinePoints data.length)

/-- `data[i] = v`. -/
def setAt (data : List C32) (i : Nat) (v : C32) : Except Panic (List C32) :=
  if i < data.length then .ok (data.set i v) else .error .index

/-- Loop of `get_mirrored_freqs` (fft.rs:411-420); `len - pos` underflows when `pos > len`, but then `data[pos]` has
already panicked. -/
def mirrorLoop (len : Nat) : List FreqPoint → List C32 → Except Panic (List C32)
  | [], data => .ok data
  | f :: fs, data => do
    let data ← setAt data f.pos f.toComplex
    if f.pos = 0 then mirrorLoop len fs data
    else do
      let data ← setAt data (len - f.pos) f.toInvComplex
      mirrorLoop len fs data

/-- `get_mirrored_freqs` (fft.rs:401-422). -/
def Fft.getMirrored (c : Fft) (len : Nat) : Except Panic (List C32) :=
  mirrorLoop len c.frequencies (List.replicate len { re := FP.zero, im := FP.zero })

/-- Inverse transform, normalise and round (fft.rs:338-344 and 446-461): `data.len() as f32` is the divisor. -/
def Fft.reconstruct (E : Ext) (c : Fft) (len : Nat) : Except Panic (List F64) := do
  let m ← c.getMirrored len
  .ok ((E.fftInv m).map fun f => c.round (f.re.div (FP.ofInt len)) 5)

/-- Loop variables (fft.rs:330-332). -/
structure FftLoop where
  c : Fft
  err : F64
  jump : Nat
  iterations : Nat

/-- `(x * 1000.0) as i32` (fft.rs:334). -/
def milli (x : F64) : Int := F64.toI32 (x.mul (F64.lit 1000))

/-- Loop body (fft.rs:335-352): `gData` is the (padded) data, `half` the halved spectrum, `maxFreq` the base count. -/
def Fft.step (E : Ext) (gData : List F64) (half : List C32) (maxFreq : Nat) (s : FftLoop) :
    Except Panic (LoopStep FftLoop) := do
  let it := s.iterations + 1
  let fs ← fftTrim E half (maxFreq + s.jump)
  let c := { s.c with frequencies := fs }
  let out ← c.reconstruct E gData.length
  let err ← calculateError gData out
  if it ≤ 22 then
    let jump := s.jump + (if it ≤ 17 then Nat.max (maxFreq / 2) 1 else Nat.max (maxFreq / 10) 1)
    .ok (.cont { c := c, err := err, jump := jump, iterations := it })
  else .ok (.brk { c := c, err := err, jump := s.jump, iterations := it })

/-- The `while` loop (fft.rs:334-353), with fuel. -/
def Fft.loop (E : Ext) (gData : List F64) (half : List C32) (maxFreq : Nat) (maxErr : F64) :
    Nat → FftLoop → Except Panic FftLoop
  | fuel, s =>
    if milli maxErr < milli s.err then
      match fuel with
      | 0 => .error .outOfFuel
      | fuel + 1 => do
        match ← Fft.step E gData half maxFreq s with
        | .brk s' => .ok s'
        | .cont s' => Fft.loop E gData half maxFreq maxErr fuel s'
    else .ok s

/-- The data the bounded search works on (fft.rs:305-309). -/
def gibbsData (data : List F64) : List F64 := if data.length ≥ 128 then gibbsSizing data else data

/-- `FFT::compress_bounded` (fft.rs:288-362).  23 iterations are proved to be enough. -/
def Fft.compressBounded (E : Ext) (c : Fft) (data : List F64) (maxErr : F64) : Except Panic Fft :=
  if c.maxValue.feq c.minValue then .ok c
  else do
    let g := gibbsData data
    let s ← Fft.loop E g (fftHalf E g) (baselinePoints data.length) maxErr 23
      { c := c, err := maxErr.add (F64.lit 1), jump := 0, iterations := 0 }
    .ok { s.c with error := some s.err }

/-- `FFT::to_data` (fft.rs:426-462). -/
def Fft.toData (E : Ext) (c : Fft) (frameSize : Nat) : Except Panic (List F64) :=
  if c.maxValue.feq c.minValue then .ok (List.replicate frameSize (FP.cvt c.maxValue))
  else do
    let added := if frameSize ≥ 128 then nextSize frameSize - frameSize else 0
    let pre := added / 2
    let suf := added - pre
    let size := frameSize + pre + suf
    let m ← c.getMirrored size
    let inv := E.fftInv m
    .ok (((inv.drop pre).take (inv.length - pre - suf)).map fun f => c.round (f.re.div (FP.ofInt size)) 5)

/-- The min/max loop of `fft`, `fft_allowed_error` and `fft_set` (fft.rs:468-477). -/
def minMax (d0 : F64) (data : List F64) : F64 × F64 :=
  data.foldl (fun p e => (if e.lt p.1 then e else p.1, if p.2.lt e then e else p.2)) (d0, d0)

/-- `fft` (fft.rs:466-484). -/
def fftPlain (E : Ext) (data : List F64) : Except Panic Bytes :=
  match data with
  | [] => .error .index
  | d0 :: _ => do
    let mm := minMax d0 data
    let c ← (Fft.new mm.1 mm.2).compress E data
    .ok c.enc

/-- `fft_set` (fft.rs:526-544). -/
def fftSet (E : Ext) (data : List F64) (freqs : Nat) : Except Panic Bytes :=
  match data with
  | [] => .error .index
  | d0 :: _ => do
    let mm := minMax d0 data
    let c ← (Fft.new mm.1 mm.2).compressHinted E data freqs
    .ok c.enc

/-- `fft_compressor` (fft.rs:516-524). -/
def fftCompressor (E : Ext) (data : List F64) (allowed : F64) (st : DataStats) : Except Panic CResult := do
  let c ← (Fft.new st.min st.max).compressBounded E data allowed
  .ok { data := c.enc, error := c.error.getD FP.zero }

/-- `fft_allowed_error` (fft.rs:494-512). -/
def fftAllowedError (E : Ext) (data : List F64) (allowed : F64) : Except Panic CResult :=
  match data with
  | [] => .error .index
  | d0 :: _ => do
    let mm := minMax d0 data
    let c ← (Fft.new mm.1 mm.2).compressBounded E data allowed
    .ok { data := c.enc, error := c.error.getD FP.zero }

/-- `fft_to_data` (fft.rs:487-490). -/
def fftToData (E : Ext) (samples : Nat) (bs : Bytes) : Except Panic (List F64) := do
  let c ← unwrapDec Fft.dec bs
  c.toData E samples

end Atsc
