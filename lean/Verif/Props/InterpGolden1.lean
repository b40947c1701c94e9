import Verif.Props.Interp
/- Unit tests of polynomial.rs re-run on the model with the reconstructed interpolation crates (one module each: kernel evaluation needs memory). -/
namespace Atsc

/-! `test_polynomial_compression` -/
example : okAnd (do let bs ← polynomial ([FP.ofBits 0x3ff0000000000000, FP.ofBits 0x3ff0000000000000, FP.ofBits 0x3ff0000000000000, FP.ofBits 0x3ff0000000000000, FP.ofBits 0x4000000000000000, FP.ofBits 0x4008000000000000, FP.ofBits 0x4014000000000000, FP.ofBits 0x3ff0000000000000, FP.ofBits 0x4000000000000000, FP.ofBits 0x401c000000000000, FP.ofBits 0x3ff0000000000000, FP.ofBits 0x3ff0000000000000, FP.ofBits 0x3ff0000000000000, FP.ofBits 0x4008000000000000, FP.ofBits 0x3ff0000000000000, FP.ofBits 0x3ff0000000000000, FP.ofBits 0x4014000000000000] : List F64) .polynomial; polyToData Ext.dummy.withInterp 17 bs) fun r =>
    decide (r = ([FP.ofBits 0x3ff0000000000000, FP.ofBits 0x3ff6666666666666, FP.ofBits 0x3ffccccccccccccd, FP.ofBits 0x400199999999999a, FP.ofBits 0x4004cccccccccccd, FP.ofBits 0x4008000000000000, FP.ofBits 0x4006978d4fdf3b64, FP.ofBits 0x400322d0e5604189, FP.ofBits 0x3ffd916872b020c5, FP.ofBits 0x3ff5604189374bc7, FP.ofBits 0x3ff0000000000000, FP.ofBits 0x3ff0000000000000, FP.ofBits 0x3ff0000000000000, FP.ofBits 0x3ff0000000000000, FP.ofBits 0x3ff0000000000000, FP.ofBits 0x3ff0000000000000, FP.ofBits 0x4014000000000000] : List F64)) := by decide +kernel

/-! `test_polynomial_linear_compression` -/
example : okAnd (do let bs ← polynomial ([FP.ofBits 0x3ff0000000000000, FP.ofBits 0x4000000000000000, FP.ofBits 0x4008000000000000, FP.ofBits 0x4010000000000000, FP.ofBits 0x4014000000000000, FP.ofBits 0x4018000000000000, FP.ofBits 0x401c000000000000, FP.ofBits 0x4020000000000000, FP.ofBits 0x4022000000000000, FP.ofBits 0x4024000000000000, FP.ofBits 0x4026000000000000, FP.ofBits 0x4028000000000000] : List F64) .polynomial; polyToData Ext.dummy.withInterp 12 bs) fun r =>
    decide (r = ([FP.ofBits 0x3ff0000000000000, FP.ofBits 0x4000000000000000, FP.ofBits 0x4008000000000000, FP.ofBits 0x4010000000000000, FP.ofBits 0x4014000000000000, FP.ofBits 0x4018000000000000, FP.ofBits 0x401c000000000000, FP.ofBits 0x4020000000000000, FP.ofBits 0x4022000000000000, FP.ofBits 0x4024000000000000, FP.ofBits 0x4026000000000000, FP.ofBits 0x4028000000000000] : List F64)) := by decide +kernel

/-! `test_idw_compression` -/
example : okAnd (do let bs ← polynomial ([FP.ofBits 0x3ff0000000000000, FP.ofBits 0x3ff0000000000000, FP.ofBits 0x3ff0000000000000, FP.ofBits 0x3ff0000000000000, FP.ofBits 0x4000000000000000, FP.ofBits 0x4008000000000000, FP.ofBits 0x4014000000000000, FP.ofBits 0x3ff0000000000000, FP.ofBits 0x4000000000000000, FP.ofBits 0x401c000000000000, FP.ofBits 0x3ff0000000000000, FP.ofBits 0x3ff0000000000000, FP.ofBits 0x3ff0000000000000, FP.ofBits 0x4008000000000000, FP.ofBits 0x3ff0000000000000, FP.ofBits 0x3ff0000000000000, FP.ofBits 0x4014000000000000] : List F64) .idw; polyToData Ext.dummy.withInterp 17 bs) fun r =>
    decide (r = ([FP.ofBits 0x3ff0000000000000, FP.ofBits 0x3ff21b52007dd441, FP.ofBits 0x3ffa02fd75e2046c, FP.ofBits 0x40029f601797cc3a, FP.ofBits 0x4006aca03c4b09ea, FP.ofBits 0x4008000000000000, FP.ofBits 0x4006ab020c49ba5e, FP.ofBits 0x4002bba8826aa8eb, FP.ofBits 0x3ffb09613d31b9b6, FP.ofBits 0x3ff2f1a9fbe76c8b, FP.ofBits 0x3ff0000000000000, FP.ofBits 0x3ff3077ee4e26d48, FP.ofBits 0x3ffa516db0dd82fd, FP.ofBits 0x3fff6a161e4f7660, FP.ofBits 0x3ffc53d859c8c932, FP.ofBits 0x3ff0000000000000, FP.ofBits 0x4014000000000000] : List F64)) := by decide +kernel

/-! `test_idw_linear_compression` -/
example : okAnd (do let bs ← polynomial ([FP.ofBits 0x3ff0000000000000, FP.ofBits 0x4000000000000000, FP.ofBits 0x4008000000000000, FP.ofBits 0x4010000000000000, FP.ofBits 0x4014000000000000, FP.ofBits 0x4018000000000000, FP.ofBits 0x401c000000000000, FP.ofBits 0x4020000000000000, FP.ofBits 0x4022000000000000, FP.ofBits 0x4024000000000000, FP.ofBits 0x4026000000000000, FP.ofBits 0x4028000000000000] : List F64) .idw; polyToData Ext.dummy.withInterp 12 bs) fun r =>
    decide (r = ([FP.ofBits 0x3ff0000000000000, FP.ofBits 0x3ffa0f47304039ac, FP.ofBits 0x400c1d441355475a, FP.ofBits 0x401366594af4f0d8, FP.ofBits 0x4014000000000000, FP.ofBits 0x40159ff822bbecab, FP.ofBits 0x401c3c1e7967caea, FP.ofBits 0x40214bcfd4bf0996, FP.ofBits 0x4022000000000000, FP.ofBits 0x4022c11f0c34c1a9, FP.ofBits 0x40265cc4ef88b978, FP.ofBits 0x4028000000000000] : List F64)) := by decide +kernel

end Atsc
