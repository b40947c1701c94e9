import Verif.Model.Cli
import Verif.Spec.Float
/- Specification vocabulary: compressing samples, uncompressing them, compressing the result again, and so on. -/
namespace Atsc

/-- One cycle: the samples `d` are compressed with the arguments `a`, the bytes fit in memory, and uncompressing them yields `d'`. -/
def Cycle (E : Ext) (p : Profile) (a : CompArgs) (d d' : List F64) : Prop :=
  ∃ bs, compressData E p d a = .ok bs ∧ bs.length < 2 ^ 64 ∧ decompressData E bs = .ok d'

/-- One cycle after the other, each with its own arguments. -/
inductive Cycles (E : Ext) (p : Profile) : List CompArgs → List F64 → List F64 → Prop
  | done (d : List F64) : Cycles E p [] d d
  | next {a : CompArgs} {as : List CompArgs} {d d₁ d₂ : List F64} : Cycle E p a d d₁ → Cycles E p as d₁ d₂ → Cycles E p (a :: as) d d₂

/-- Zero, or a magnitude between `2^-64` and `2^62`. -/
def MidSized (x : F64) : Prop := x.val = 0 ∨ ((2 : ℚ) ^ (-64 : ℤ) ≤ |x.val| ∧ |x.val| ≤ 2 ^ 62)

end Atsc
