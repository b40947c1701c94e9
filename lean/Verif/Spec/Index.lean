import Verif.Model.Vsri
import Mathlib.Data.List.Pairwise
/- Specification vocabulary for the time index: histories of points and what segments mean.  The only model type used is `Seg`, the
documented `[rate, first sample, first time, number of samples]` record of the index file. -/
namespace Atsc

/-- A history of points handed to the index: strictly increasing, non-negative, `i32`, fewer than 2^31 of them. -/
structure StrictHistory (h : List Int) : Prop where
  increasing : h.Pairwise (· < ·)
  range : ∀ y ∈ h, 0 ≤ y ∧ y < 2147483648
  few : h.length < 2147483648

/-- A strictly increasing history of second-of-day timestamps. -/
structure DayHistory (h : List Int) : Prop where
  increasing : h.Pairwise (· < ·)
  range : ∀ y ∈ h, 0 ≤ y ∧ y < 86400

/-- A history of points in time order, repetitions allowed. -/
structure SortedHistory (h : List Int) : Prop where
  sorted : h.Pairwise (· ≤ ·)
  range : ∀ y ∈ h, 0 ≤ y ∧ y < 2147483648
  few : h.length < 2147483648

/-- The points of a history whose calls returned `Ok`. -/
def acceptedPoints : List Int → List Bool → List Int
  | y :: ys, r :: rs => if r then y :: acceptedPoints ys rs else acceptedPoints ys rs
  | _, _ => []

/-- `a` is the regular history `t0, t0 + m, …` of `n` points. -/
def regular (t0 m : Int) (n : Nat) : List Int := (List.range n).map fun (i : Nat) => t0 + m * (i : Int)

/-- The time of the last sample of a segment, as the segment records it. -/
def Seg.last (s : Seg) : Int := s.y0 + s.m * (s.n - 1)

/-- `t` is within the time span of the segment. -/
def Seg.Spans (s : Seg) (t : Int) : Prop := s.y0 ≤ t ∧ t ≤ s.last

/-- Sample number `i` belongs to the segment. -/
def Seg.Has (s : Seg) (i : Int) : Prop := s.x0 ≤ i ∧ i < s.x0 + s.n

/-- The segments cover the sample numbers from `a` (included) to `b` (excluded), contiguously, in order and without overlap. -/
def Contiguous : Int → List Seg → Int → Prop
  | a, [], b => a = b
  | a, s :: ss, b => s.x0 = a ∧ 1 ≤ s.n ∧ Contiguous (a + s.n) ss b

end Atsc
