import Verif.Model.Float
/- Specification of the chunked container, independent of the model of WavBrro. -/
namespace Atsc

/-- Every chunk but the last holds exactly 2048 samples and the last one holds between 1 and 2048. -/
def WellChunked (cs : List (List F64)) : Prop :=
  (∀ c ∈ cs.dropLast, c.length = 2048) ∧ ∀ c, cs.getLast? = some c → 1 ≤ c.length ∧ c.length ≤ 2048

end Atsc
