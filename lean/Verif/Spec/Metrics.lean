import Verif.Spec.Float
import Mathlib.Algebra.BigOperators.Group.List.Basic
/- The error metrics as textbook formulas over the rationals. -/
namespace Atsc

/-- Mean absolute error. -/
def exactMae (o g : List F64) : ℚ := (List.zipWith (fun x y => |y.val - x.val|) o g).sum / o.length
/-- Mean squared error. -/
def exactMse (o g : List F64) : ℚ := (List.zipWith (fun x y => (y.val - x.val) ^ 2) o g).sum / o.length
/-- Normalised mean squared error: squared error over the energy of the original. -/
def exactNmse (o g : List F64) : ℚ := (List.zipWith (fun x y => (y.val - x.val) ^ 2) o g).sum / (o.map fun x => x.val ^ 2).sum
/-- Mean absolute percentage error, relative to the original. -/
def exactMape (o g : List F64) : ℚ := (List.zipWith (fun x y => |(y.val - x.val) / x.val|) o g).sum / o.length
/-- Total absolute error over the total of the magnitudes, divided once more by the number of samples (what the code calls SMAPE). -/
def exactSmape (o g : List F64) : ℚ :=
  (List.zipWith (fun x y => |y.val - x.val|) o g).sum / (List.zipWith (fun x y => |x.val| + |y.val|) o g).sum / o.length

/-- Finite numbers of magnitude at most `2^400`. -/
def Moderate (l : List F64) : Prop := ∀ x ∈ l, x.isFinite = true ∧ |x.val| ≤ 2 ^ 400

/-- `r` is `v` up to a relative error of `c * 2^-53` and an absolute error of `2^-1070`. -/
def Close (c : ℚ) (r : F64) (v : ℚ) : Prop := r.isFinite = true ∧ |r.val - v| ≤ c / 2 ^ 53 * v + 1 / 2 ^ 1070

end Atsc
