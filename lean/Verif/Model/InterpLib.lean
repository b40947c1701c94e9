import Verif.Model.Ext
import Verif.Model.Stats
/-
Reconstruction of the two interpolation crates used by /repo/atsc/src/compressor/polynomial.rs:342-393, `splines` 4.3.1 and
`inverse_distance_weight` 0.1.1.  Their source is not in the sandbox: the formulas are the documented ones (linear and cubic Hermite /
Catmull-Rom splines; Shepard weights with exponent 2), the order of the floating point operations is an assumption, and the result is checked
against the four decompression tests of polynomial.rs (`Verif/Props/Interp.lean`).

No property theorem needs this file: they hold for every `Ext`, or for every `Ext` satisfying `Ext.Interpolates`.  It shows that
the hypothesis is met by the algorithms the crates document.
-/
namespace Atsc

/-- `f64` interpolation parameter: `(t - a) / (b - a)`. -/
def normalizeT (t a b : F64) : F64 := (t.sub a).div (b.sub a)

/-- `a * (1 - t) + b * t`. -/
def lerpF (t a b : F64) : F64 := (a.mul ((F64.lit 1).sub t)).add (b.mul t)

/-- Cubic Hermite interpolation between `a` and `b` with tangents taken from the neighbours `x` and `y` (position, value). -/
def hermiteF (t : F64) (x a b y : F64 × F64) : F64 :=
  let t2 := t.mul t
  let t3 := t2.mul t
  let twoT3 := t3.mul (F64.lit 2)
  let twoT2 := t2.mul (F64.lit 2)
  let threeT2 := t2.mul (F64.lit 3)
  let m0 := ((b.2.sub x.2).div (b.1.sub x.1)).mul (b.1.sub a.1)
  let m1 := ((y.2.sub a.2).div (y.1.sub a.1)).mul (b.1.sub a.1)
  (((a.2.mul ((twoT3.sub threeT2).add (F64.lit 1))).add (m0.mul ((t3.sub twoT2).add t))).add
    (b.2.mul (threeT2.sub twoT3))).add (m1.mul (t3.sub t2))

/-- Index of the last key at or before `t` (the crate finds it by binary search), if there is one and it is not the last key. -/
def lowerKey (keys : List SplineKey) (t : F64) : Option Nat :=
  let k := (keys.takeWhile fun k => k.t.le t).length
  if keys.length < 2 ∨ k = 0 ∨ k = keys.length then none else some (k - 1)

/-- `Spline::sample`: with Catmull-Rom the value is absent unless there is a key before and two after. -/
def splineSample (keys : List SplineKey) (t : F64) : Option F64 :=
  match lowerKey keys t with
  | none => none
  | some i =>
    match keys[i]?, keys[i + 1]? with
    | some a, some b =>
      if a.catmullRom then
        if i = 0 then none
        else match keys[i - 1]?, keys[i + 2]? with
          | some x, some y => some (hermiteF (normalizeT t a.t b.t) (x.t, x.value) (a.t, a.value) (b.t, b.value) (y.t, y.value))
          | _, _ => none
      else some (lerpF (normalizeT t a.t b.t) a.value b.value)
    | _, _ => none

/-- `Spline::clamped_sample` (keys already sorted by position). -/
def splineClamped (keys : List SplineKey) (t : F64) : Option F64 :=
  match splineSample keys t with
  | some v => some v
  | none =>
    match keys.head?, keys.getLast? with
    | some f, some l => if t.le f.t then some f.value else if l.t.le t then some l.value else none
    | _, _ => none

/-- Shepard interpolation with exponent 2; exactly at a point, its value. -/
def shepardLoop (x : F64) : List (F64 × F64) → F64 → F64 → F64
  | [], num, den => num.div den
  | (p, v) :: r, num, den =>
    let d := (x.sub p).abs
    if d.feq FP.zero then v
    else
      let w := (F64.lit 1).div (d.mul d)
      shepardLoop x r (num.add (w.mul v)) (den.add w)

/-- `IDW::new(points, values).evaluate(x)`. -/
def shepard (points values : List F64) (x : F64) : F64 := shepardLoop x (points.zip values) FP.zero FP.zero

/-- `E` with the interpolation crates replaced by the reconstruction. -/
def Ext.withInterp (E : Ext) : Ext := { E with spline := splineClamped, idw := shepard }

end Atsc
