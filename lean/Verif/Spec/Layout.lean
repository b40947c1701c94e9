/- Specification vocabulary: how a series is expected to be cut into frames. -/
namespace Atsc

/-- The expected frame sizes for `n` samples: as many full frames of 131072 samples as fit; then, from 65536 down to 512, one frame for each of these
powers of two present in the binary expansion of `n`; then what is left (fewer than 512 samples), if anything. -/
def frameSizes (n : Nat) : List Nat :=
  List.replicate (n / 131072) 131072 ++
    [65536, 32768, 16384, 8192, 4096, 2048, 1024, 512].filter (fun b => b ≤ n % (2 * b)) ++
    (if n % 512 = 0 then [] else [n % 512])

/-- Cut a list into consecutive pieces of the given sizes. -/
def cutBy {α : Type} : List Nat → List α → List (List α)
  | [], _ => []
  | z :: zs, l => l.take z :: cutBy zs (l.drop z)

/-- The expected pieces of a series. -/
def layout {α : Type} (l : List α) : List (List α) := cutBy (frameSizes l.length) l

example : frameSizes (131072 * 3 + 1765) = [131072, 131072, 131072, 1024, 512, 229] := by decide
example : frameSizes 12032 = [8192, 2048, 1024, 512, 256] := by decide
example : frameSizes 2048 = [2048] ∧ frameSizes 31 = [31] ∧ frameSizes 0 = [] ∧ frameSizes 512 = [512] := by decide

end Atsc
