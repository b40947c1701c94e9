import Verif.Props.InterpGolden2
/- Unit tests of polynomial.rs re-run on the model with the reconstructed interpolation crates (one module each: kernel evaluation needs memory). -/
namespace Atsc

/-! `test_idw_to_allowed_error` -/
example : okAnd (do let r ← polynomialAllowedError Ext.dummy.withInterp ([FP.ofBits 0x3ff0000000000000, FP.ofBits 0x3ff0000000000000, FP.ofBits 0x3ff0000000000000, FP.ofBits 0x3ff0000000000000, FP.ofBits 0x4000000000000000, FP.ofBits 0x4008000000000000, FP.ofBits 0x4014000000000000, FP.ofBits 0x3ff0000000000000, FP.ofBits 0x4000000000000000, FP.ofBits 0x401c000000000000, FP.ofBits 0x3ff0000000000000, FP.ofBits 0x3ff0000000000000, FP.ofBits 0x3ff0000000000000, FP.ofBits 0x4008000000000000, FP.ofBits 0x3ff0000000000000, FP.ofBits 0x3ff0000000000000, FP.ofBits 0x4014000000000000] : List F64) (FP.ofBits 0x3f947ae147ae147b) .idw; let o ← polyToData Ext.dummy.withInterp 17 r.data; calculateError ([FP.ofBits 0x3ff0000000000000, FP.ofBits 0x3ff0000000000000, FP.ofBits 0x3ff0000000000000, FP.ofBits 0x3ff0000000000000, FP.ofBits 0x4000000000000000, FP.ofBits 0x4008000000000000, FP.ofBits 0x4014000000000000, FP.ofBits 0x3ff0000000000000, FP.ofBits 0x4000000000000000, FP.ofBits 0x401c000000000000, FP.ofBits 0x3ff0000000000000, FP.ofBits 0x3ff0000000000000, FP.ofBits 0x3ff0000000000000, FP.ofBits 0x4008000000000000, FP.ofBits 0x3ff0000000000000, FP.ofBits 0x3ff0000000000000, FP.ofBits 0x4014000000000000] : List F64) o) fun r => r.le (FP.ofBits 0x3f947ae147ae147b) := by decide +kernel

end Atsc
