import Verif.Model.Panic
/- Model of the time index `Vsri` of /repo/vsri/src/lib.rs.

All `i32` values are modelled by `Int`; every `i32` operation of the code goes through `i32op`, so an overflow panics in a debug
build and wraps in a release build.  The field `index_file` (the name of the file the index will be flushed to) is not modelled. -/
namespace Atsc

/-- The values of an `i32`. -/
def InI32 (a : Int) : Prop := -2147483648 ≤ a ∧ a < 2147483648

instance (a : Int) : Decidable (InI32 a) := by unfold InI32; infer_instance

/-- Two's complement wrap to 32 bits. -/
def wrap32 (a : Int) : Int := (a + 2147483648) % 4294967296 - 2147483648

/-- The result of an `i32` addition, subtraction or multiplication whose exact value is `a`. -/
def i32op (p : Profile) (a : Int) : Except Panic Int :=
  if InI32 a then .ok a else
    match p with
    | .debug => .error .overflow
    | .release => .ok (wrap32 a)

/-- `i32` division: truncates toward zero; division by zero and `MIN / -1` panic in every build. -/
def i32div (a b : Int) : Except Panic Int :=
  if b = 0 then .error .divZero
  else if b = -1 ∧ a = -2147483648 then .error .overflow
  else .ok (a.tdiv b)

/-- One entry of `vsri_segments`: `[sample rate m, first sample x0, first time y0, number of samples]` (lib.rs:101-108). -/
structure Seg where
  m : Int
  x0 : Int
  y0 : Int
  n : Int
  deriving DecidableEq, Repr

/-- `struct Vsri` (lib.rs:101-108) without the file name. -/
structure Vsri where
  minTs : Int
  maxTs : Int
  segs : List Seg
  deriving DecidableEq, Repr

namespace Vsri

/-- `Vsri::new` (lib.rs:113-121). -/
def new : Vsri := { minTs := 0, maxTs := 0, segs := [] }

/-- `current_segment` (lib.rs:303-308). -/
def current (v : Vsri) : Seg := v.segs.getLastD ⟨0, 0, 0, 0⟩

/-- `calculate_b` (lib.rs:296-300). -/
def calculateB (p : Profile) (s : Seg) : Except Panic Int := do
  let t ← i32op p (s.m * s.x0)
  i32op p (s.y0 - t)

/-- `create_fake_segment` (lib.rs:388-394). -/
def fakeSegment (p : Profile) (v : Vsri) (y : Int) : Except Panic Seg := do
  let x ← i32op p (v.current.x0 + v.current.n)
  .ok ⟨0, x, y, 1⟩

/-- `is_fake_segment` (lib.rs:397-400). -/
def isFake (v : Vsri) : Bool := v.current.m == 0

/-- `generate_segment` (lib.rs:371-383). -/
def generateSegment (p : Profile) (v : Vsri) (y : Int) : Except Panic Seg :=
  if v.current.m ≠ 0 then .ok v.current
  else do
    let m ← i32op p (y - v.current.y0)
    .ok ⟨m, v.current.x0, v.current.y0, 2⟩

/-- `fits_segment` (lib.rs:403-420).  The `debug!` argument `last_segment[3] + last_segment[1]` is the same sum as the one compared. -/
def fitsSegment (p : Profile) (v : Vsri) (y : Int) : Except Panic Bool := do
  let b ← calculateB p v.current
  let d ← i32op p (y - b)
  let x ← i32div d v.current.m
  let next ← i32op p (v.current.n + v.current.x0)
  .ok (x == next)

/-- `update_for_point` (lib.rs:249-284): the new index and whether the call returned `Ok`. -/
def update (p : Profile) (v : Vsri) (y : Int) : Except Panic (Vsri × Bool) :=
  if y < v.maxTs then .ok (v, false)
  else
    let v := { v with maxTs := y }
    if v.segs.length = 0 then do
      let v := { v with minTs := y }
      let s ← v.fakeSegment p y
      .ok ({ v with segs := v.segs ++ [s] }, true)
    else if v.isFake then do
      let s ← v.generateSegment p y
      .ok ({ v with segs := v.segs.set (v.segs.length - 1) s }, true)
    else do
      if (← v.fitsSegment p y) then do
        let n ← i32op p (v.current.n + 1)
        .ok ({ v with segs := v.segs.set (v.segs.length - 1) { v.current with n := n } }, true)
      else do
        let s ← v.fakeSegment p y
        .ok ({ v with segs := v.segs ++ [s] }, true)

/-- `min` / `max` (lib.rs:287-294). -/
def min (v : Vsri) : Int := v.minTs
@[inherit_doc min] def max (v : Vsri) : Int := v.maxTs

/-- `get_sample_count` (lib.rs:364-367). -/
def sampleCount (p : Profile) (v : Vsri) : Except Panic Int := i32op p (v.current.n + v.current.x0)

/-- `y0 + (sample_rate * (num_samples - 1))` (lib.rs:220, 317). -/
def segEnd (p : Profile) (s : Seg) : Except Panic Int := do
  let k ← i32op p (s.n - 1)
  let t ← i32op p (s.m * k)
  i32op p (s.y0 + t)

/-- The loop of `get_sample` (lib.rs:312-326). -/
def getSampleIn (p : Profile) (y : Int) : List Seg → Except Panic (Option Int)
  | [] => .ok none
  | s :: ss => do
    let e ← segEnd p s
    if y ≥ s.y0 ∧ y ≤ e then do
      let b ← calculateB p s
      let d ← i32op p (y - b)
      let x ← i32div d s.m
      .ok (some x)
    else getSampleIn p y ss

/-- `get_sample` (lib.rs:311-327). -/
def getSample (p : Profile) (v : Vsri) (y : Int) : Except Panic (Option Int) := getSampleIn p y v.segs

/-- The loop of `get_time` (lib.rs:337-346). -/
def getTimeIn (p : Profile) (x : Int) : List Seg → Except Panic (Option Int)
  | [] => .ok none
  | s :: ss => do
    if x ≥ s.x0 then do
      let e ← i32op p (s.x0 + s.n)
      if x < e then do
        let t ← i32op p (s.m * x)
        let y ← i32op p (s.y0 + t)
        .ok (some y)
      else getTimeIn p x ss
    else getTimeIn p x ss

/-- `get_time` (lib.rs:330-349). -/
def getTime (p : Profile) (v : Vsri) (x : Int) : Except Panic (Option Int) :=
  if x = 0 then .ok (some v.min)
  else do
    let c ← v.sampleCount p
    if x > c then .ok none
    else if x = c then .ok (some v.max)
    else getTimeIn p x v.segs

/-- The timestamps of one segment: `(0..samples).map(|f| f * time_step + initial_ts)` (lib.rs:355-359). -/
def segTimes (p : Profile) (s : Seg) : Except Panic (List Int) :=
  (List.range s.n.toNat).mapM fun (f : Nat) => do
    let t ← i32op p ((f : Int) * s.m)
    i32op p (t + s.y0)

/-- `get_all_timestamps` (lib.rs:352-362). -/
def allTimestamps (p : Profile) (v : Vsri) : Except Panic (List Int) := do
  let ts ← v.segs.mapM (segTimes p)
  .ok ts.flatten

/-- The loop of `get_next_sample` (lib.rs:161-168) over the reversed segments. -/
def nextIn (y : Int) : List Seg → Option Int
  | [] => none
  | s :: ss => if y ≤ s.y0 then some s.x0 else nextIn y ss

/-- `get_next_sample` (lib.rs:154-169). -/
def getNext (v : Vsri) (y : Int) : Option Int :=
  if y < v.min then some 0
  else if y ≥ v.max then none
  else nextIn y v.segs.reverse

/-- The loop of `get_previous_sample` (lib.rs:183-191). -/
def prevIn (p : Profile) (y : Int) : List Seg → Except Panic (Option Int)
  | [] => .ok none
  | s :: ss =>
    if y < s.y0 then do
      let x ← i32op p (s.x0 - 1)
      .ok (some x)
    else prevIn p y ss

/-- `get_previous_sample` (lib.rs:175-192). -/
def getPrevious (p : Profile) (v : Vsri) (y : Int) : Except Panic (Option Int) :=
  if y < v.min then .ok none
  else if y ≥ v.max then do
    let c ← v.sampleCount p
    .ok (some c)
  else prevIn p y v.segs

/-- `get_this_or_next` (lib.rs:137-141). -/
def thisOrNext (p : Profile) (v : Vsri) (y : Int) : Except Panic (Option Int) := do
  match ← v.getSample p y with
  | some x => .ok (some x)
  | none => .ok (v.getNext y)

/-- `get_this_or_previous` (lib.rs:144-148): the argument of `or` is evaluated first. -/
def thisOrPrevious (p : Profile) (v : Vsri) (y : Int) : Except Panic (Option Int) := do
  let r ← v.getSample p y
  let q ← v.getPrevious p y
  .ok (r.or q)

/-- The loop of `is_empty` over several segments (lib.rs:213-241); `prev` is `previous_seg_end` and `k` the segment number. -/
def isEmptyIn (p : Profile) (a b : Int) : Int → Nat → List Seg → Except Panic Bool
  | _, _, [] => .ok true
  | prev, k, s :: ss => do
    let e ← segEnd p s
    if k ≥ 1 ∧ (a > prev ∧ b < s.y0) then .ok true
    else if (a ≥ s.y0 ∧ a < e) ∨ (b < e ∧ b ≥ s.y0) then .ok false
    else if a < s.y0 ∧ b > e then .ok false
    else isEmptyIn p a b e (k + 1) ss

/-- `is_empty` (lib.rs:197-245) on the time segment `[a, b]`. -/
def isEmpty (p : Profile) (v : Vsri) (a b : Int) : Except Panic Bool :=
  if v.segs.length = 1 then
    if (a ≥ v.min ∧ a ≤ v.max) ∨ (b ≤ v.max ∧ b ≥ v.min) then .ok false
    else if a < v.min ∧ b > v.max then .ok false
    else .ok true
  else isEmptyIn p a b 0 0 v.segs

/-- A history of `update_for_point` calls: the final index and the outcome of each call. -/
def run (p : Profile) : Vsri → List Int → Except Panic (Vsri × List Bool)
  | v, [] => .ok (v, [])
  | v, y :: ys => do
    let (v', r) ← v.update p y
    let (w, rs) ← run p v' ys
    .ok (w, r :: rs)

end Vsri

/-- `day_elapsed_seconds` (lib.rs:50-58).  `valid` is the range of chrono's `DateTime::from_timestamp` (outside it the `unwrap`
panics); inside it chrono's clock fields are those of the Euclidean remainder by 86400. -/
def dayElapsedSeconds (valid : Int → Bool) (t : Int) : Except Panic Int :=
  if valid t then
    let secs := t % 86400
    let hour := secs / 3600
    let minute := secs / 60 % 60
    let second := secs % 60
    .ok (hour * 3600 + minute * 60 + second)
  else .error .unwrap

/-- `start_day_ts` (lib.rs:61-66) on the `DateTime` whose timestamp is `t` (sub-second part ignored, as in the code). -/
def startDayTs (t : Int) : Int :=
  let secs := t % 86400
  t - (secs / 3600 * 3600 + secs / 60 % 60 * 60 + secs % 60)

end Atsc
