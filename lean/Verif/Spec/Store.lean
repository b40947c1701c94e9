import Verif.Model.Stats
/- Specification vocabulary: what a storage type does to a value. -/
namespace Atsc

/-- The value that is read back when `v` is stored at depth `bd` (cast to the type, cast back). -/
def castBD (bd : Bitdepth) (v : F64) : F64 :=
  match bd with
  | .u8 => FP.ofInt v.toU8
  | .i16 => FP.ofInt v.toI16
  | .i32 => FP.ofInt v.toI32
  | .f64 => v

end Atsc
