import Verif.Spec.Float
import Verif.Model.Ext
import Verif.Model.Compressor
/- Specification vocabulary for the interpolating compressors. -/
namespace Atsc

/-- The compressor an interpolation method belongs to. -/
def PolyType.comp : PolyType → Compressor
  | .polynomial => .polynomial
  | .idw => .idw

/-- `ps` is the increasing list of the positions below `n` that are multiples of `step` or the last position. -/
structure StepPositions (n step : Nat) (ps : List Nat) : Prop where
  sorted : ps.Pairwise (· < ·)
  mem : ∀ i, i ∈ ps ↔ i < n ∧ (step ∣ i ∨ i = n - 1)

/-- What an interpolation library promises: at a knot it returns the value of the knot, for knots at strictly increasing whole
positions below `2^53`, values finite and far from overflow, and Catmull-Rom asked for only where there is a key before and two keys
after.  A law about the external crates `splines` and `inverse_distance_weight`, only ever used as an explicit hypothesis; the
reconstruction of the two crates in `Verif/Model/InterpLib.lean` satisfies it (`Verif/Props/Interp.lean`). -/
structure Ext.Interpolates (E : Ext) : Prop where
  spline : ∀ keys : List SplineKey, keys.Pairwise (fun a b => a.t.lt b.t = true) →
    (∀ k ∈ keys, (∃ n : Nat, n < 2 ^ 53 ∧ k.t = F64.lit n) ∧ k.value.isFinite = true ∧ |k.value.val| ≤ 2 ^ 1000) →
    (∀ i (h : i < keys.length), keys[i].catmullRom = true → 0 < i ∧ i + 2 < keys.length) →
    ∀ k ∈ keys, ∃ v, E.spline keys k.t = some v ∧ v.feq k.value = true
  idw : ∀ (ps : List Nat) (vs : List F64), ps.length = vs.length → ps.Pairwise (· < ·) →
    (∀ p ∈ ps, p < 2 ^ 53) → (∀ v ∈ vs, v.isFinite = true ∧ |v.val| ≤ 2 ^ 1000) →
    ∀ i (h1 : i < ps.length) (h2 : i < vs.length),
      (E.idw (ps.map fun p : Nat => F64.lit (p : Int)) vs (F64.lit ((ps[i] : Nat) : Int))).feq vs[i] = true

end Atsc
