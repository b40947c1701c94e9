import Verif.Model.Utils
import Verif.Model.Simple
import Verif.Model.Ext
/- Model of /repo/atsc/src/compressor/polynomial.rs. -/
namespace Atsc

/-- `enum PolynomialType` (polynomial.rs:29-34). -/
inductive PolyType where
  | polynomial | idw
  deriving DecidableEq, Repr

/-- derived `Encode`/`Decode` of `PolynomialType` -/
def encPolyType : PolyType → Bytes
  | .polynomial => encVar 0
  | .idw => encVar 1
def decPolyType : Dec PolyType := decU32.bind fun n =>
  match n with
  | 0 => Dec.pure .polynomial
  | 1 => Dec.pure .idw
  | _ => Dec.fail

/-- `struct Polynomial` (polynomial.rs:43-52). `pointStep` is the u8 as a number. -/
structure Poly where
  id : PolyType
  dataPoints : List F64
  min : F64
  max : F64
  pointStep : Nat
  error : Option F64
  bitdepth : Bitdepth

/-- `Encode for Polynomial` (polynomial.rs:54-87). -/
def Poly.enc (c : Poly) : Bytes :=
  encPolyType c.id ++ encBitdepth c.bitdepth ++ encVec (encValue c.bitdepth) c.dataPoints ++
    encF64 c.min ++ encF64 c.max ++ encU8 (UInt8.ofNat c.pointStep)

/-- `Decode for Polynomial` (polynomial.rs:89-131; `borrow_decode` at 133-176 is the same). -/
def Poly.dec : Dec Poly :=
  decPolyType.bind fun id => decBitdepth.bind fun bd => (decVec (decValue bd)).bind fun pts =>
    decF64.bind fun mn => decF64.bind fun mx => decU8.bind fun st =>
      Dec.pure { id := id, dataPoints := pts, min := mn, max := mx, pointStep := st.toNat, error := none, bitdepth := bd }

/-- `Polynomial::new` (polynomial.rs:179-200). -/
def Poly.new (min max : F64) (ty : PolyType) (bd : Bitdepth) : Poly :=
  { id := ty, dataPoints := [], min := min, max := max, pointStep := 1, error := none, bitdepth := bd }

/-- `(0..n).step_by(step)`, plus the last position when it is not already there: the position list built both by the
encoder (polynomial.rs:292-296) and by `get_positions` (329-340).  Encoder positions pass through `f64`, exact below `2^53`. -/
def positions (n step : Nat) : List Nat :=
  let ps := (List.range ((n + step - 1) / step)).map (· * step)
  if ps.getLast? ≠ some (n - 1) then ps ++ [n - 1] else ps

/-- `data[i]` for a list of positions. -/
def gather (data : List F64) : List Nat → Except Panic (List F64)
  | [] => .ok []
  | i :: is =>
    match data[i]? with
    | none => .error .index
    | some v => do
      let vs ← gather data is
      .ok (v :: vs)

/-- `Polynomial::compress_hinted` (polynomial.rs:279-305).  On an empty slice the pushed position `-1.0` makes the indexing panic. -/
def Poly.compressHinted (c : Poly) (data : List F64) (points : Nat) : Except Panic Poly :=
  if c.max.feq c.min then .ok c
  else if points = 0 then .error .divZero
  else if data.length = 0 then .error .index
  else do
    let step := Nat.max (data.length / points) 1
    let values ← gather data (positions data.length step)
    .ok { c with dataPoints := values, pointStep := step % 256 }

/-- `baseline_points` / `points` (polynomial.rs:220-224, 308-312). -/
def baselinePoints (n : Nat) : Nat := if 3 ≥ n / 100 then 3 else n / 100

/-- `Polynomial::compress` (polynomial.rs:307-314). -/
def Poly.compress (c : Poly) (data : List F64) : Except Panic Poly :=
  c.compressHinted data (baselinePoints data.length)

/-- `get_positions` (polynomial.rs:329-340): `step_by(0)` panics; `frame_size - 1` underflows for an empty frame
(a debug build panics; such a frame is never written). -/
def Poly.getPositions (c : Poly) (frameSize : Nat) : Except Panic (List Nat) :=
  if c.pointStep = 0 then .error .divZero
  else if frameSize = 0 then .error .overflow
  else .ok (positions frameSize c.pointStep)

/-- Keys of the spline (polynomial.rs:345-355). -/
def splineKeys (points : List Nat) (values : List F64) : List SplineKey :=
  (points.zip values).mapIdx fun k p =>
    { t := F64.lit p.1, value := p.2, catmullRom := decide (0 < k) && decide (points.length - k > 2) }

/-- The sampling loop (polynomial.rs:360-371). -/
def splineSamples (sample : F64 → Option F64) (mn mx : F64) : Nat → List Nat → F64 → List F64
  | _, [], _ => []
  | d, i :: is, prev =>
    let v := (sample (F64.lit i)).getD prev
    roundAndLimit v mn mx d :: splineSamples sample mn mx d is v

/-- `polynomial_to_data` (polynomial.rs:342-373); `DECIMAL_PRECISION = 5`. -/
def Poly.polynomialToData (E : Ext) (c : Poly) (frameSize : Nat) : Except Panic (List F64) := do
  let points ← c.getPositions frameSize
  let keys := splineKeys points c.dataPoints
  .ok (splineSamples (E.spline keys) c.min c.max 5 (List.range frameSize) c.min)

/-- `idw_to_data` (polynomial.rs:375-393). -/
def Poly.idwToData (E : Ext) (c : Poly) (frameSize : Nat) : Except Panic (List F64) := do
  let points ← c.getPositions frameSize
  let ps := points.map fun p : Nat => F64.lit (p : Int)
  .ok ((List.range frameSize).map fun i : Nat => roundAndLimit (E.idw ps c.dataPoints (F64.lit (i : Int))) c.min c.max 5)

/-- The choice of method (polynomial.rs:202-207, 241-244, 400-403). -/
def Poly.interpolate (E : Ext) (c : Poly) (frameSize : Nat) : Except Panic (List F64) :=
  match c.id with
  | .idw => c.idwToData E frameSize
  | .polynomial => c.polynomialToData E frameSize

/-- `Polynomial::to_data` (polynomial.rs:395-404). -/
def Poly.toData (E : Ext) (c : Poly) (frameSize : Nat) : Except Panic (List F64) :=
  if c.max.feq c.min then .ok (List.replicate frameSize c.max)
  else c.interpolate E frameSize

/-- Loop variables of the error control loop (polynomial.rs:226-228). -/
structure PolyLoop where
  c : Poly
  err : F64
  jump : Nat
  iterations : Nat

/-- Outcome of one loop iteration. -/
inductive LoopStep (σ : Type) where
  | cont (s : σ)
  | brk (s : σ)

/-- Body of the loop (polynomial.rs:239-269). -/
def Poly.step (E : Ext) (data : List F64) (target : F64) (s : PolyLoop) : Except Panic (LoopStep PolyLoop) := do
  let n := data.length
  let it := s.iterations + 1
  let c ← s.c.compressHinted data (baselinePoints n + s.jump)
  let out ← c.interpolate E n
  let err ← calculateError data out
  if it ≤ 22 then
    let jump := s.jump + (if it ≤ 17 then Nat.max (n / 10) 1 else Nat.max (n / 100) 1)
    if c.dataPoints.length = n then .ok (.brk { c := c, err := FP.zero, jump := jump, iterations := it })
    else .ok (.cont { c := c, err := err, jump := jump, iterations := it })
  else if (roundF64 err 4).lt target then .ok (.brk { c := c, err := err, jump := s.jump, iterations := it })
  else do
    let c' ← c.compressHinted data n
    .ok (.brk { c := c', err := FP.zero, jump := s.jump, iterations := it })

/-- The `while target_error < round_f64(current_err, 4)` loop (polynomial.rs:231-270), with fuel. -/
def Poly.loop (E : Ext) (data : List F64) (target : F64) : Nat → PolyLoop → Except Panic PolyLoop
  | fuel, s =>
    if target.lt (roundF64 s.err 4) then
      match fuel with
      | 0 => .error .outOfFuel
      | fuel + 1 => do
        match ← Poly.step E data target s with
        | .brk s' => .ok s'
        | .cont s' => Poly.loop E data target fuel s'
    else .ok s

/-- Loop state before the first iteration. -/
def Poly.loopInit (c : Poly) (maxErr : F64) : PolyLoop :=
  { c := c, err := maxErr.add (F64.lit 1), jump := 0, iterations := 0 }

/-- `Polynomial::compress_bounded` (polynomial.rs:209-277).  23 iterations are proved to be enough. -/
def Poly.compressBounded (E : Ext) (c : Poly) (data : List F64) (maxErr : F64) : Except Panic Poly :=
  if c.max.feq c.min then .ok c
  else do
    let s ← Poly.loop E data (roundF64 maxErr 3) 23 (c.loopInit maxErr)
    .ok { s.c with error := some s.err }

/-- `polynomial` (polynomial.rs:407-413). -/
def polynomial (data : List F64) (ty : PolyType) : Except Panic Bytes := do
  let st ← DataStats.new data
  let c ← (Poly.new st.min st.max ty st.bitdepth).compress data
  .ok c.enc

/-- `polynomial_allowed_error` (polynomial.rs:415-425). -/
def polynomialAllowedError (E : Ext) (data : List F64) (allowed : F64) (ty : PolyType) : Except Panic CResult := do
  let st ← DataStats.new data
  let c ← (Poly.new st.min st.max ty st.bitdepth).compressBounded E data allowed
  .ok { data := c.enc, error := c.error.getD FP.zero }

/-- `polynomial::to_data` (polynomial.rs:427-430). -/
def polyToData (E : Ext) (samples : Nat) (bs : Bytes) : Except Panic (List F64) := do
  let c ← unwrapDec Poly.dec bs
  c.toData E samples

end Atsc
