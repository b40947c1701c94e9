import Verif.Model.Stream
import Verif.Model.Optimizer
import Verif.Model.Cli
import Verif.Model.Wavbrro
import Verif.Model.Csv
import Verif.Spec.Dummy
/- TESTS, not proofs of properties: the literal cases of the unit tests in /repo, evaluated on the model by the kernel.  Their purpose is to tie the
transcription to the code: every byte string and every number below is copied from an `assert_eq!` of the named test.  The tests of /repo that run
`rustfft` are not here (its arithmetic is external); those that run `splines` and `inverse_distance_weight` are in `Verif/Props/Interp.lean`. -/
namespace Atsc.Golden
open Atsc

/-- A literal `f64` by its bits. -/
abbrev b (n : Nat) : F64 := FP.ofBits n

/-- Bytes written by `IndexRLE::new(data, stats.bitdepth).to_bytes()`. -/
def rleBytes (d : List F64) : Except Panic Bytes := do let s ← DataStats.new d; .ok (IndexRLE.new d s.bitdepth).enc
/-- Bytes written by `Constant::new(n, stats.min, stats.bitdepth).to_bytes()`. -/
def constBytes (d : List F64) : Except Panic Bytes := do let s ← DataStats.new d; .ok (Constant.new s.min s.bitdepth).enc

/-! `constant.rs test_constant_u8` -/
example : okAnd (constBytes [(b 0x3ff0000000000000), (b 0x3ff0000000000000), (b 0x3ff0000000000000), (b 0x3ff0000000000000), (b 0x3ff0000000000000)]) fun r => decide (r = [30, 3, 1]) := by decide +kernel

/-! `constant.rs test_constant_f64` -/
example : okAnd (constBytes [(b 0x3ff3c0c1fc8f3238), (b 0x3ff3c0c1fc8f3238), (b 0x3ff3c0c1fc8f3238), (b 0x3ff3c0c1fc8f3238), (b 0x3ff3c0c1fc8f3238)]) fun r => decide (r = [30, 0, 56, 50, 143, 252, 193, 192, 243, 63]) := by decide +kernel

/-! `constant.rs test_compression` -/
example : okAnd (constantToData 5 [30, 3, 1]) fun r => decide (r = [(b 0x3ff0000000000000), (b 0x3ff0000000000000), (b 0x3ff0000000000000), (b 0x3ff0000000000000), (b 0x3ff0000000000000)]) := by decide +kernel

/-! `noop.rs test_noop` -/
example : noop [(b 0x3ff0000000000000), (b 0x3ff0000000000000), (b 0x3ff0000000000000), (b 0x3ff0000000000000), (b 0x3ff0000000000000)] = [250, 5, 2, 2, 2, 2, 2] := by decide +kernel

/-! `noop.rs test_decompression` -/
example : okAnd (noopToData 5 (noop [(b 0x3ff0000000000000), (b 0x4000000000000000), (b 0x4008000000000000), (b 0x4010000000000000), (b 0x3ff0000000000000)])) fun r => decide (r = [(b 0x3ff0000000000000), (b 0x4000000000000000), (b 0x4008000000000000), (b 0x4010000000000000), (b 0x3ff0000000000000)]) := by decide +kernel

/-! `noop.rs test_optimize` -/
example : Noop.optimize [(b 0x3ff8000000000000), (b 0x400599999999999a), (b 0x400a666666666666), (b 0x401399999999999a)] = [2, 3, 3, 5] := by decide +kernel

/-! `rle.rs test_index_rle_beats_regular_rle` -/
example : okAnd (rleBytes [(b 0x3ff0000000000000), (b 0x0000000000000000), (b 0x0000000000000000), (b 0x0000000000000000), (b 0x0000000000000000), (b 0x0000000000000000), (b 0x0000000000000000), (b 0x0000000000000000), (b 0x0000000000000000), (b 0x0000000000000000), (b 0x3ff0000000000000), (b 0x0000000000000000), (b 0x0000000000000000), (b 0x0000000000000000), (b 0x0000000000000000), (b 0x0000000000000000), (b 0x0000000000000000), (b 0x0000000000000000), (b 0x0000000000000000), (b 0x0000000000000000), (b 0x3ff0000000000000), (b 0x0000000000000000), (b 0x0000000000000000), (b 0x0000000000000000), (b 0x0000000000000000), (b 0x0000000000000000), (b 0x0000000000000000), (b 0x0000000000000000), (b 0x0000000000000000), (b 0x0000000000000000), (b 0x3ff0000000000000)]) fun e => decide (e.length < 16) && okAnd (rleToData 31 e) fun r => decide (r = [(b 0x3ff0000000000000), (b 0x0000000000000000), (b 0x0000000000000000), (b 0x0000000000000000), (b 0x0000000000000000), (b 0x0000000000000000), (b 0x0000000000000000), (b 0x0000000000000000), (b 0x0000000000000000), (b 0x0000000000000000), (b 0x3ff0000000000000), (b 0x0000000000000000), (b 0x0000000000000000), (b 0x0000000000000000), (b 0x0000000000000000), (b 0x0000000000000000), (b 0x0000000000000000), (b 0x0000000000000000), (b 0x0000000000000000), (b 0x0000000000000000), (b 0x3ff0000000000000), (b 0x0000000000000000), (b 0x0000000000000000), (b 0x0000000000000000), (b 0x0000000000000000), (b 0x0000000000000000), (b 0x0000000000000000), (b 0x0000000000000000), (b 0x0000000000000000), (b 0x0000000000000000), (b 0x3ff0000000000000)]) := by decide +kernel

/-! `rle.rs test_for_constant` -/
set_option maxRecDepth 20000 in
example : okAnd (rleBytes (List.replicate 512 (b 0x3ff0000000000000))) fun r => decide (r = [60, 3, 1, 1, 1, 0]) := by decide +kernel

/-! `rle.rs test_for_constant (decoding)` -/
set_option maxRecDepth 20000 in
example : okAnd (rleToData 512 [60, 3, 1, 1, 1, 0]) fun r => decide (r = (List.replicate 512 (b 0x3ff0000000000000))) := by decide +kernel

/-! `rle.rs test_simple_validator` -/
example : okAnd (rleBytes [(b 0x3ff0000000000000), (b 0x4000000000000000), (b 0x4000000000000000), (b 0x4008000000000000), (b 0x4008000000000000), (b 0x4008000000000000), (b 0x4010000000000000), (b 0x4010000000000000), (b 0x4010000000000000), (b 0x4010000000000000), (b 0x4014000000000000), (b 0x4014000000000000), (b 0x4014000000000000), (b 0x4014000000000000), (b 0x4014000000000000)]) fun r => decide (r = [60, 3, 5, 1, 1, 0, 2, 1, 1, 3, 1, 3, 4, 1, 6, 5, 1, 10]) := by decide +kernel

/-! `rle.rs test_simple_validator (decoding)` -/
example : okAnd (rleToData 15 [60, 3, 5, 1, 1, 0, 2, 1, 1, 3, 1, 3, 4, 1, 6, 5, 1, 10]) fun r => decide (r = [(b 0x3ff0000000000000), (b 0x4000000000000000), (b 0x4000000000000000), (b 0x4008000000000000), (b 0x4008000000000000), (b 0x4008000000000000), (b 0x4010000000000000), (b 0x4010000000000000), (b 0x4010000000000000), (b 0x4010000000000000), (b 0x4014000000000000), (b 0x4014000000000000), (b 0x4014000000000000), (b 0x4014000000000000), (b 0x4014000000000000)]) := by decide +kernel

/-! `rle.rs test_rle_u8` -/
example : okAnd (rleBytes [(b 0x3ff0000000000000), (b 0x3ff0000000000000), (b 0x3ff0000000000000), (b 0x3ff0000000000000), (b 0x4000000000000000), (b 0x4000000000000000), (b 0x3ff0000000000000), (b 0x3ff0000000000000), (b 0x3ff0000000000000), (b 0x3ff0000000000000), (b 0x4000000000000000), (b 0x4000000000000000), (b 0x4008000000000000), (b 0x4008000000000000), (b 0x4008000000000000), (b 0x4008000000000000), (b 0x4008000000000000), (b 0x4008000000000000), (b 0x3ff0000000000000), (b 0x3ff0000000000000), (b 0x3ff0000000000000), (b 0x3ff0000000000000), (b 0x3ff0000000000000), (b 0x3ff0000000000000), (b 0x3ff0000000000000), (b 0x3ff0000000000000), (b 0x3ff0000000000000)]) fun r => decide (r = [60, 3, 3, 1, 3, 0, 6, 18, 2, 2, 4, 10, 3, 1, 12]) := by decide +kernel

/-! `rle.rs test_rle_u8 (decoding)` -/
example : okAnd (rleToData 27 [60, 3, 3, 1, 3, 0, 6, 18, 2, 2, 4, 10, 3, 1, 12]) fun r => decide (r = [(b 0x3ff0000000000000), (b 0x3ff0000000000000), (b 0x3ff0000000000000), (b 0x3ff0000000000000), (b 0x4000000000000000), (b 0x4000000000000000), (b 0x3ff0000000000000), (b 0x3ff0000000000000), (b 0x3ff0000000000000), (b 0x3ff0000000000000), (b 0x4000000000000000), (b 0x4000000000000000), (b 0x4008000000000000), (b 0x4008000000000000), (b 0x4008000000000000), (b 0x4008000000000000), (b 0x4008000000000000), (b 0x4008000000000000), (b 0x3ff0000000000000), (b 0x3ff0000000000000), (b 0x3ff0000000000000), (b 0x3ff0000000000000), (b 0x3ff0000000000000), (b 0x3ff0000000000000), (b 0x3ff0000000000000), (b 0x3ff0000000000000), (b 0x3ff0000000000000)]) := by decide +kernel

/-! `rle.rs test_rle_f64` -/
example : okAnd (rleBytes [(b 0x3ff3c0c1fc8f3238), (b 0x3ff3c0c1fc8f3238), (b 0x3ff3c0c1fc8f3238), (b 0x3ff3c0c1fc8f3238), (b 0x3ff3c0c1fc8f3238)]) fun r => decide (r = [60, 0, 1, 56, 50, 143, 252, 193, 192, 243, 63, 1, 0]) := by decide +kernel

/-! `rle.rs test_rle_f64 (decoding)` -/
example : okAnd (rleToData 5 [60, 0, 1, 56, 50, 143, 252, 193, 192, 243, 63, 1, 0]) fun r => decide (r = [(b 0x3ff3c0c1fc8f3238), (b 0x3ff3c0c1fc8f3238), (b 0x3ff3c0c1fc8f3238), (b 0x3ff3c0c1fc8f3238), (b 0x3ff3c0c1fc8f3238)]) := by decide +kernel

/-! `polynomial.rs test_polynomial_u8` -/
example : okAnd (polynomial [(b 0x3ff0000000000000), (b 0x0000000000000000), (b 0x3ff0000000000000), (b 0x3ff0000000000000), (b 0x4000000000000000), (b 0x3ff0000000000000), (b 0x3ff0000000000000), (b 0x3ff0000000000000), (b 0x4008000000000000), (b 0x3ff0000000000000), (b 0x3ff0000000000000), (b 0x4014000000000000)] .polynomial) fun r => decide (r = [0, 3, 4, 1, 2, 3, 5, 0, 0, 0, 0, 0, 0, 0, 0, 0, 0, 0, 0, 0, 0, 20, 64, 4]) := by decide +kernel

/-! `polynomial.rs test_polynomial_i16` -/
example : okAnd (polynomial [(b 0x3ff0000000000000), (b 0x0000000000000000), (b 0x3ff0000000000000), (b 0x3ff0000000000000), (b 0x4000000000000000), (b 0x3ff0000000000000), (b 0x3ff0000000000000), (b 0x3ff0000000000000), (b 0x4008000000000000), (b 0x3ff0000000000000), (b 0x3ff0000000000000), (b 0x407f400000000000)] .polynomial) fun r => decide (r = [0, 2, 4, 2, 4, 6, 251, 232, 3, 0, 0, 0, 0, 0, 0, 0, 0, 0, 0, 0, 0, 0, 64, 127, 64, 4]) := by decide +kernel

/-! `polynomial.rs test_polynomial_i32` -/
example : okAnd (polynomial [(b 0x40e3882000000000), (b 0x40e3880000000000), (b 0x40e3882000000000), (b 0x40e3882000000000), (b 0x40e3884000000000), (b 0x40e3882000000000), (b 0x40e3882000000000), (b 0x40e3882000000000), (b 0x40e3886000000000), (b 0x40e3882000000000), (b 0x40e3882000000000), (b 0x40e388a000000000)] .polynomial) fun r => decide (r = [0, 1, 4, 252, 130, 56, 1, 0, 252, 132, 56, 1, 0, 252, 134, 56, 1, 0, 252, 138, 56, 1, 0, 0, 0, 0, 0, 0, 136, 227, 64, 0, 0, 0, 0, 160, 136, 227, 64, 4]) := by decide +kernel

/-! `polynomial.rs test_polynomial_f64` -/
example : okAnd (polynomial [(b 0x3ff199999999999a), (b 0x3fb999999999999a), (b 0x3ff199999999999a), (b 0x3ff199999999999a), (b 0x4000000000000000), (b 0x3ff0000000000000), (b 0x3ff0000000000000), (b 0x3ff0000000000000), (b 0x4008000000000000), (b 0x3ff0000000000000), (b 0x3ff0000000000000), (b 0x4014000000000000)] .polynomial) fun r => decide (r = [0, 0, 4, 154, 153, 153, 153, 153, 153, 241, 63, 0, 0, 0, 0, 0, 0, 0, 64, 0, 0, 0, 0, 0, 0, 8, 64, 0, 0, 0, 0, 0, 0, 20, 64, 154, 153, 153, 153, 153, 153, 185, 63, 0, 0, 0, 0, 0, 0, 20, 64, 4]) := by decide +kernel

/-! `polynomial.rs test_idw` -/
example : okAnd (polynomial [(b 0x3ff0000000000000), (b 0x0000000000000000), (b 0x3ff0000000000000), (b 0x3ff0000000000000), (b 0x4000000000000000), (b 0x3ff0000000000000), (b 0x3ff0000000000000), (b 0x3ff0000000000000), (b 0x4008000000000000), (b 0x3ff0000000000000), (b 0x3ff0000000000000), (b 0x4014000000000000)] .idw) fun r => decide (r = [1, 3, 4, 1, 2, 3, 5, 0, 0, 0, 0, 0, 0, 0, 0, 0, 0, 0, 0, 0, 0, 20, 64, 4]) := by decide +kernel

/-! `polynomial.rs test_line_polynomial` -/
example : okAnd (polynomial [(b 0x3ff0000000000000), (b 0x3ff0000000000000), (b 0x3ff0000000000000), (b 0x3ff0000000000000)] .polynomial) fun r => decide (r = [0, 3, 0, 0, 0, 0, 0, 0, 0, 240, 63, 0, 0, 0, 0, 0, 0, 240, 63, 1]) := by decide +kernel

/-! `polynomial.rs test_line_idw` -/
example : okAnd (polynomial [(b 0x3ff0000000000000), (b 0x3ff0000000000000), (b 0x3ff0000000000000), (b 0x3ff0000000000000)] .idw) fun r => decide (r = [1, 3, 0, 0, 0, 0, 0, 0, 0, 240, 63, 0, 0, 0, 0, 0, 0, 240, 63, 1]) := by decide +kernel

/-! `data.rs test_to_bytes, header.rs test_same_version_or_smaller` -/
set_option maxRecDepth 20000 in
example : okAnd (do let s ← Stream.new.compressChunkWith Ext.dummy .debug (List.replicate 1024 (b 0x3ff0000000000000)) .constant; .ok s.toBytes) fun r => decide (r = ([66, 82, 82, 79, 1, 0, 0, 0, 1, 1, 41, 251, 0, 4, 3, 3, 30, 3, 1] : Bytes)) := by decide +kernel

/-! `data.rs test_from_bytes` -/
example : okAnd (Stream.fromBytes [66, 82, 82, 79, 1, 0, 0, 0, 1, 1, 41, 251, 0, 4, 3, 3, 30, 3, 1]) fun s => s.frames.length == 1 && s.header.frameCount == 1 := by decide +kernel

/-! `data.rs test_constant_decompression` -/
set_option maxRecDepth 20000 in
example : okAnd (do let s ← Stream.fromBytes [66, 82, 82, 79, 1, 0, 0, 0, 1, 1, 41, 251, 0, 4, 3, 3, 30, 3, 1]; s.decompress Ext.dummy) fun r => decide (r = (List.replicate 1024 (b 0x3ff0000000000000))) := by decide +kernel

/-! `header.rs test_higher_version` -/
example : (match Stream.fromBytes [66, 82, 82, 79, 9, 0, 0, 0, 1, 1, 41, 251, 0, 4, 3, 3, 30, 3, 1] with | .error _ => true | .ok _ => false) = true := by decide +kernel

/-! `error.rs errorMse` -/
example : okAnd (errorMse [(b 0x3ff0000000000000), (b 0x4000000000000000), (b 0x4008000000000000), (b 0x4010000000000000), (b 0x4014000000000000)] [(b 0x3ff0000000000000), (b 0x4000000000000000), (b 0x4008000000000000), (b 0x4010000000000000), (b 0x4014000000000000)]) (·.feq FP.zero) && okAnd (errorMse [(b 0x3ff0000000000000), (b 0x4000000000000000), (b 0x4008000000000000), (b 0x4010000000000000), (b 0x4014000000000000)] [(b 0x4004000000000000), (b 0x4010000000000000), (b 0x4018000000000000), (b 0x4020000000000000), (b 0x4024000000000000)]) (·.feq (b 0x4026800000000000)) := by decide +kernel

/-! `error.rs errorNmse` -/
example : okAnd (errorNmse [(b 0x3ff0000000000000), (b 0x4000000000000000), (b 0x4008000000000000), (b 0x4010000000000000), (b 0x4014000000000000)] [(b 0x3ff0000000000000), (b 0x4000000000000000), (b 0x4008000000000000), (b 0x4010000000000000), (b 0x4014000000000000)]) (·.feq FP.zero) && okAnd (errorNmse [(b 0x3ff0000000000000), (b 0x4000000000000000), (b 0x4008000000000000), (b 0x4010000000000000), (b 0x4014000000000000)] [(b 0x4004000000000000), (b 0x4010000000000000), (b 0x4018000000000000), (b 0x4020000000000000), (b 0x4024000000000000)]) (·.feq (b 0x3ff05d1745d1745d)) := by decide +kernel

/-! `error.rs errorMae` -/
example : okAnd (errorMae [(b 0x3ff0000000000000), (b 0x4000000000000000), (b 0x4008000000000000), (b 0x4010000000000000), (b 0x4014000000000000)] [(b 0x3ff0000000000000), (b 0x4000000000000000), (b 0x4008000000000000), (b 0x4010000000000000), (b 0x4014000000000000)]) (·.feq FP.zero) && okAnd (errorMae [(b 0x3ff0000000000000), (b 0x4000000000000000), (b 0x4008000000000000), (b 0x4010000000000000), (b 0x4014000000000000)] [(b 0x4004000000000000), (b 0x4010000000000000), (b 0x4018000000000000), (b 0x4020000000000000), (b 0x4024000000000000)]) (·.feq (b 0x4008cccccccccccd)) := by decide +kernel

/-! `error.rs errorMape` -/
example : okAnd (errorMape [(b 0x3ff0000000000000), (b 0x4000000000000000), (b 0x4008000000000000), (b 0x4010000000000000), (b 0x4014000000000000)] [(b 0x3ff0000000000000), (b 0x4000000000000000), (b 0x4008000000000000), (b 0x4010000000000000), (b 0x4014000000000000)]) (·.feq FP.zero) && okAnd (errorMape [(b 0x3ff0000000000000), (b 0x4000000000000000), (b 0x4008000000000000), (b 0x4010000000000000), (b 0x4014000000000000)] [(b 0x4004000000000000), (b 0x4010000000000000), (b 0x4018000000000000), (b 0x4020000000000000), (b 0x4024000000000000)]) (·.feq (b 0x3ff199999999999a)) := by decide +kernel

/-! `error.rs test_calculate_mape (vector3)` -/
example : okAnd (errorMape [(b 0x3ff0000000000000)] [(b 0x3ff199999999999a)]) (·.lt (b 0x3fb9db22d0e56042)) := by decide +kernel

/-! `error.rs test_calculate_smape` -/
example : okAnd (errorSmape [(b 0x3ff0000000000000), (b 0x4000000000000000), (b 0x4008000000000000), (b 0x4010000000000000), (b 0x4014000000000000)] [(b 0x3ff0000000000000), (b 0x4000000000000000), (b 0x4008000000000000), (b 0x4010000000000000), (b 0x4014000000000000)]) (·.feq FP.zero) && okAnd (errorSmape [(b 0x3ff0000000000000), (b 0x3ff0000000000000), (b 0x3ff0000000000000), (b 0x3ff0000000000000), (b 0x4000000000000000), (b 0x4008000000000000), (b 0x4014000000000000), (b 0x3ff0000000000000), (b 0x4000000000000000), (b 0x401c000000000000), (b 0x3ff0000000000000), (b 0x3ff0000000000000), (b 0x3ff0000000000000), (b 0x4008000000000000), (b 0x3ff0000000000000), (b 0x3ff0000000000000), (b 0x4014000000000000)] [(b 0x3ff0000000000000), (b 0x3ff0000000000000), (b 0x3ff0000000000000), (b 0x3ff0000000000000), (b 0x4000000000000000), (b 0x4008000000000000), (b 0x4014000000000000), (b 0x3ff0000000000000), (b 0x4000000000000000), (b 0x401c000000000000), (b 0x3ff0000000000000), (b 0x3ff0000000000000), (b 0x3ff0000000000000), (b 0x4008000000000000), (b 0x3ff0000000000000), (b 0x3ff0000000000000), (b 0x4014000000000000)]) (·.feq FP.zero) && okAnd (errorSmape [(b 0x3ff0000000000000), (b 0x4000000000000000), (b 0x4008000000000000), (b 0x4010000000000000), (b 0x4014000000000000)] [(b 0x4004000000000000), (b 0x4010000000000000), (b 0x4018000000000000), (b 0x4020000000000000), (b 0x4024000000000000)]) (·.lt (b 0x3fd6978d4fdf3b64)) && okAnd (errorSmape [(b 0x3ff0000000000000)] [(b 0x3ff199999999999a)]) (·.lt (b 0x3fb9db22d0e56042)) && okAnd (errorSmape [(b 0x3ff0000000000000)] [(b 0x4000000000000000)]) ((b 0x3fd51eb851eb851f).lt ·) := by decide +kernel

/-! `utils/mod.rs test_round_and_limit_f64` -/
example : roundAndLimit (b 0x4008000000000000) (b 0x4000000000000000) (b 0x4010000000000000) 1 = (b 0x4008000000000000) := by decide +kernel

/-! `utils/mod.rs test_round_and_limit_f64` -/
example : roundAndLimit (b 0x4014000000000000) (b 0x4000000000000000) (b 0x4010000000000000) 1 = (b 0x4010000000000000) := by decide +kernel

/-! `utils/mod.rs test_round_and_limit_f64` -/
example : roundAndLimit (b 0x3ff0000000000000) (b 0x4000000000000000) (b 0x4010000000000000) 1 = (b 0x4000000000000000) := by decide +kernel

/-! `utils/mod.rs test_round_and_limit_f64` -/
example : roundAndLimit (b 0x4008fcd490d53ea5) (b 0x4000000000000000) (b 0x4010000000000000) 3 = (b 0x4008fbe76c8b4396) := by decide +kernel

/-! `utils/mod.rs test_is_decomposable` -/
example : isDecomposable 2048 && isDecomposable 512 := by decide +kernel

/-! `utils/mod.rs test_next_size` -/
example : nextSize 2048 = 2187 := by decide +kernel

/-! `utils/mod.rs test_next_size` -/
example : nextSize 512 = 576 := by decide +kernel

/-! `utils/mod.rs test_next_size` -/
example : nextSize 256 = 288 := by decide +kernel

/-! `utils/mod.rs test_next_size` -/
example : nextSize 128 = 144 := by decide +kernel

/-! `utils/mod.rs test_next_size` -/
example : nextSize 12432 = 13122 := by decide +kernel

/-! `optimizer/mod.rs test_get_chunks_sizes` -/
example : chunkSizes 394981 = [131072, 131072, 131072, 1024, 512, 229] := by decide +kernel

/-! `optimizer/mod.rs test_get_chunks_sizes` -/
example : chunkSizes 31 = [31] := by decide +kernel

/-! `optimizer/mod.rs test_get_chunks_sizes` -/
example : chunkSizes 2048 = [2048] := by decide +kernel

/-! `optimizer/mod.rs test_get_chunks_sizes` -/
example : chunkSizes 12032 = [8192, 2048, 1024, 512, 256] := by decide +kernel

/-! `optimizer/mod.rs optimizer` -/
set_option maxRecDepth 20000 in
example : okAnd (do let p ← Plan.plan (List.replicate 2049 (b 0x402875c28f5c28f6)); p.getExecution) fun r => r.length == 2 := by decide +kernel

/-! `optimizer/mod.rs assign_compressor` -/
example : (chunkSizes 132671).length = 4 := by decide +kernel

/-! `optimizer/utils.rs test_stats_linear` -/
example : okAnd (DataStats.new [(b 0x3ff0000000000000), (b 0x3ff0000000000000), (b 0x3ff0000000000000)]) fun s => decide (s.bitdepth = .u8 ∧ s.min = (b 0x3ff0000000000000) ∧ s.max = (b 0x3ff0000000000000) ∧ s.mean = (b 0x3ff0000000000000) ∧ s.minLoc = 0 ∧ s.maxLoc = 0 ∧ s.fractional = false) := by decide +kernel

/-! `optimizer/utils.rs test_stats_non_linear` -/
example : okAnd (DataStats.new [(b 0x3ff0000000000000), (b 0x4010000000000000), (b 0x401c000000000000)]) fun s => decide (s.bitdepth = .u8 ∧ s.min = (b 0x3ff0000000000000) ∧ s.max = (b 0x401c000000000000) ∧ s.mean = (b 0x4010000000000000) ∧ s.minLoc = 0 ∧ s.maxLoc = 2 ∧ s.fractional = false) := by decide +kernel

/-! `optimizer/utils.rs test_stats_fract_non_linear` -/
example : okAnd (DataStats.new [(b 0x3ff8000000000000), (b 0x4012000000000000), (b 0x4022000000000000)]) fun s => decide (s.bitdepth = .f64 ∧ s.min = (b 0x3ff8000000000000) ∧ s.max = (b 0x4022000000000000) ∧ s.mean = (b 0x4014000000000000) ∧ s.minLoc = 0 ∧ s.maxLoc = 2 ∧ s.fractional = true) := by decide +kernel

/-! `wavbrro.rs test_serialization` -/
example : okAnd (do let w ← WavBrro.addAll .debug .new [(b 0x3ff0000000000000)]; w.toBytes) fun r => decide (r = [0, 0, 0, 0, 0, 0, 240, 63, 248, 255, 255, 255, 1, 0, 0, 0, 248, 255, 255, 255, 1, 0, 0, 0, 1, 0, 0, 0, 5, 0, 0, 0]) := by decide +kernel

/-! `wavbrro.rs test_deserialization` -/
example : okAnd (do let w ← WavBrro.addAll .debug .new [(b 0x3ff0000000000000), (b 0x4000000000000000), (b 0x4008000000000000)]; let bs ← w.toBytes; let w2 ← WavBrro.fromBytes 16 bs; .ok (w, w2)) fun r => decide (r.1 = r.2) := by decide +kernel

/-! `wavbrro.rs test_read_wavbrro` -/
example : okAnd (do let w ← WavBrro.addAll .debug .new [(b 0x3ff0000000000000), (b 0x4000000000000000), (b 0x4008000000000000)]; let f ← w.toFile; WavBrro.fromFile 16 f) fun r => decide (r = .samples [(b 0x3ff0000000000000), (b 0x4000000000000000), (b 0x4008000000000000)]) := by decide +kernel

/-! `atsc/src/csv.rs` tests; `parse` knows the literals of the tests only. -/
def parse (s : List Char) : Option F64 :=
  if s = "123.45".toList then some (b 0x405edccccccccccd) else if s = "678.90".toList then some (b 0x4085373333333333) else none
def row (l : List String) : BRow := l.map fun s => s.toList.flatMap String.utf8EncodeChar
def hdr : BRow := row ["timestamp", "value"]
def r1 : BRow := row ["1625097600", "123.45"]
def r2 : BRow := row ["1625184000", "678.90"]

/-! `csv.rs test_valid_csv` -/
example : okAnd (readSamplesWithHeaders parse [hdr, r1, r2] "timestamp".toList "value".toList) fun r => match r with | .ok o => decide (o = [⟨0, (b 0x405edccccccccccd)⟩, ⟨0, (b 0x4085373333333333)⟩]) | .error _ => false := by decide +kernel

/-! `csv.rs test_single_column_csv_no_headers` -/
example : okAnd (readSamples parse [row ["123.45"], row ["678.90"]]) fun r => match r with | .ok o => decide (o = [⟨0, (b 0x405edccccccccccd)⟩, ⟨0, (b 0x4085373333333333)⟩]) | .error _ => false := by decide +kernel

/-! `csv.rs test_incorrect_format_single_column` -/
example : okAnd (readSamples parse [row ["value"], row ["123.45"], row ["invalid_value"], row ["678.90"]]) fun r => match r with | .ok _ => false | .error e => decide (e = .parsingValueFailed) := by decide +kernel

/-! `csv.rs test_missing_timestamp_column` -/
example : okAnd (readSamplesWithHeaders parse [row ["time", "value"], r1, r2] "timestamp".toList "value".toList) fun r => match r with | .ok _ => false | .error e => decide (e = .timestampFieldNotFound) := by decide +kernel

/-! `csv.rs test_missing_value_column` -/
example : okAnd (readSamplesWithHeaders parse [row ["timestamp", "price"], r1, r2] "timestamp".toList "value".toList) fun r => match r with | .ok _ => false | .error e => decide (e = .valueFieldNotFound) := by decide +kernel

/-! `csv.rs test_parsing_error_value` -/
example : okAnd (readSamplesWithHeaders parse [hdr, row ["1625097600", "invalid_value"], r2] "timestamp".toList "value".toList) fun r => match r with | .ok _ => false | .error e => decide (e = .parsingValueFailed) := by decide +kernel

/-! `csv.rs test_no_headers_csv` -/
example : okAnd (readSamples parse [hdr, r1, r2]) fun r => match r with | .ok _ => false | .error e => decide (e = .parsingValueFailed) := by decide +kernel

end Atsc.Golden
