import Mathlib.Data.List.Basic
/-
`std::collections::BinaryHeap` (library/alloc/src/collections/binary_heap/mod.rs), as used by `fft_trim`
(/repo/atsc/src/compressor/fft.rs:244-255): `BinaryHeap::from(vec)` followed by `pop`s.  The standard library's source is not in the
sandbox; the functions follow its published text.  A `Hole` that moves through the vector is modelled by swapping its element along.
`cmp` is the element type's `Ord::cmp`; nothing is assumed about it.
-/
namespace Atsc
namespace Heap
variable {α : Type} (cmp : α → α → Ordering)

/-- `a <= b` through `PartialOrd` (default method on `partial_cmp`). -/
def le (a b : α) : Bool := cmp a b != .gt
/-- `a >= b`. -/
def ge (a b : α) : Bool := cmp a b != .lt
/-- `a < b`. -/
def lt (a b : α) : Bool := cmp a b == .lt

/-- `hole.move_to(j)` with the hole at `i`. -/
def swap (l : List α) (i j : Nat) : List α :=
  match l[i]?, l[j]? with
  | some a, some b => (l.set i b).set j a
  | _, _ => l

/-- A comparison of two elements of the vector (in bounds in every call). -/
def test (p : α → α → Bool) (l : List α) (i j : Nat) : Bool :=
  match l[i]?, l[j]? with
  | some a, some b => p a b
  | _, _ => false

/-- `sift_up(0, pos)`; `pos` rounds of fuel are enough. -/
def siftUp : Nat → List α → Nat → List α
  | 0, l, _ => l
  | fuel + 1, l, pos =>
    if pos = 0 then l
    else if test (le cmp) l pos ((pos - 1) / 2) then l
    else siftUp fuel (swap l pos ((pos - 1) / 2)) ((pos - 1) / 2)

/-- The greater of the two children `c`, `c + 1` (the second when equal). -/
def bigger (l : List α) (c : Nat) : Nat := if test (le cmp) l c (c + 1) then c + 1 else c

/-- `sift_down_range(pos, end)` with `end = len`. -/
def siftDown : Nat → List α → Nat → List α
  | 0, l, _ => l
  | fuel + 1, l, pos =>
    if 2 * pos + 1 ≤ l.length - 2 then
      let c := bigger cmp l (2 * pos + 1)
      if test (ge cmp) l pos c then l else siftDown fuel (swap l pos c) c
    else if 2 * pos + 1 = l.length - 1 ∧ test (lt cmp) l pos (2 * pos + 1) = true then swap l pos (2 * pos + 1)
    else l

/-- The downward part of `sift_down_to_bottom(0)`: the vector and the final place of the hole. -/
def toBottom : Nat → List α → Nat → List α × Nat
  | 0, l, pos => (l, pos)
  | fuel + 1, l, pos =>
    if 2 * pos + 1 ≤ l.length - 2 then
      let c := bigger cmp l (2 * pos + 1)
      toBottom fuel (swap l pos c) c
    else if 2 * pos + 1 = l.length - 1 then (swap l pos (2 * pos + 1), 2 * pos + 1)
    else (l, pos)

/-- `sift_down_to_bottom(0)`. -/
def siftDownToBottom (l : List α) : List α :=
  let r := toBottom cmp l.length l 0
  siftUp cmp r.2 r.1 r.2

/-- The loop of `rebuild`: `n` down to 1, sifting down position `n - 1`. -/
def rebuildLoop : Nat → List α → List α
  | 0, l => l
  | n + 1, l => rebuildLoop n (siftDown cmp l.length l n)

/-- `BinaryHeap::from(vec)`. -/
def fromVec (l : List α) : List α := rebuildLoop cmp (l.length / 2) l

/-- `pop`. -/
def pop (l : List α) : Option (α × List α) :=
  match l.getLast? with
  | none => none
  | some item =>
    match l.dropLast with
    | [] => some (item, [])
    | root :: rest => some (root, siftDownToBottom cmp (item :: rest))

/-- All the `pop`s until the heap is empty. -/
def popAll : Nat → List α → List α
  | 0, _ => []
  | fuel + 1, l =>
    match pop cmp l with
    | none => []
    | some (x, l') => x :: popAll fuel l'

/-- The order in which a heap made from `l` pops its elements. -/
def pops (l : List α) : List α := popAll cmp l.length (fromVec cmp l)

end Heap
end Atsc
