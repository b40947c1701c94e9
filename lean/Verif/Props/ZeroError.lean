import Verif.Props.AutoExact
import Verif.Props.Default
import Verif.Props.Session
import Verif.Props.Interp
/- C114: with `--error 0` the default settings are lossless for decimal data. -/
namespace Atsc
open FP

/-- Specification: the value of the sample is that of the double nearest to a decimal number with at most five digits after the point (up to `2^50` units of
the fifth). -/
def Decimal5 (x : F64) : Prop := ∃ k : ℤ, |k| ≤ 2 ^ 50 ∧ x.val = ((F64.lit k).div (F64.lit (10 ^ 5))).val

/-- Specification: two samples are told apart by single precision if they are different at all. -/
def ToldApart (x y : F64) : Prop := x.val ≠ y.val → (FP.cvt x : F32).val ≠ (FP.cvt y : F32).val

theorem val_feq {x y : F64} (hx : x.isFinite = true) (hy : y.isFinite = true) (h : x.val = y.val) : x.feq y = true :=
  feq_iff.2 ⟨isFinite_not_nan hx, isFinite_not_nan hy, val_scaled.1 h⟩

theorem decimal5_survives {data : List F64} {x : F64} (hf : x.isFinite = true) (h : Decimal5 x) : Survives data x := by
  left
  obtain ⟨k, hk, hx⟩ := h
  obtain ⟨d1, d2⟩ := decimal_fixed (d := 5) (by norm_num) hk
  have hyf : ((F64.lit k).div (F64.lit (10 ^ 5))).isFinite = true := finite_of_val hx.symm hf
  rcases (feq_iff_eq_or_zero (isFinite_not_nan hf) (isFinite_not_nan hyf)).1 (val_feq hf hyf hx) with h | ⟨h, -⟩
  · rw [h]; exact val_feq d1 hyf d2
  · have hx0 : x.val = 0 := by
      rw [val_eq (by decide), show x.scaled = 0 by rw [← Int.natAbs_eq_zero, scaled_natAbs]; exact h]; simp
    obtain ⟨z1, z2⟩ := zero_round5 x hx0
    exact val_feq z2 hf (by rw [z1, hx0])

theorem div_zero_num : (F64.lit 0).div (F64.lit (10 ^ 5)) = FP.zero := by decide +kernel
theorem inv_pow_le {a b : Nat} (h : a ≤ b) : (1 : ℚ) / 2 ^ b ≤ 1 / 2 ^ a :=
  one_div_le_one_div_of_le (by positivity) (pow_le_pow_right₀ (by norm_num) h)

theorem decimal5_inRange {x : F64} (h : Decimal5 x) : InRange x := by
  obtain ⟨k, hk, hx⟩ := h
  by_cases h0 : k = 0
  · left
    rw [hx, h0, div_zero_num]
    exact zero64_small.2
  · right
    obtain ⟨hyv, hyf⟩ := lit10 (d := 5) (by norm_num)
    have hkl := lit_val (n := k) (by rw [Int.abs_eq_natAbs] at hk; omega)
    rw [hx]
    generalize F64.lit (10 ^ 5) = y at hyv hyf ⊢
    generalize F64.lit k = z at hkl ⊢
    have hk1 : (1 : ℚ) ≤ |(k : ℚ)| := by
      rw [← Int.cast_abs]; exact_mod_cast Int.one_le_abs h0
    have hk2 : |(k : ℚ)| ≤ 1125899906842624 := by
      rw [← Int.cast_abs]; exact_mod_cast hk
    have hq : |z.val / y.val| = |(k : ℚ)| / 100000 := by
      rw [hkl.2, hyv, abs_div]; norm_num
    have hd := (div_err hkl.1 hyf (by rw [hyv]; norm_num) (by
      rw [hq]; exact le_trans (by linarith) (big_le (by norm_num : 51 ≤ 1023)))).2
    have hu : ulpErr (z.val / y.val) ≤ |(k : ℚ)| / 200000 := by
      unfold ulpErr
      refine max_le ?_ ?_
      · refine le_trans (inv_pow_le (by norm_num : 64 ≤ 1075)) ?_
        norm_num; linarith
      · rw [hq]; norm_num; linarith
    have h1 := abs_sub_abs_le_abs_sub (z.val / y.val) (z.div y).val
    have h2 := abs_sub_abs_le_abs_sub (z.div y).val (z.val / y.val)
    rw [abs_sub_comm] at h1
    rw [hq] at h1 h2
    constructor
    · rw [show ((2 : ℚ) ^ (-64 : ℤ)) = 1 / 2 ^ 64 by norm_num]
      refine le_trans (by norm_num : (1 : ℚ) / 2 ^ 64 ≤ 1 / 200000) ?_
      linarith
    · rw [show ((2 : ℚ) ^ (63 : ℤ)) = 9223372036854775808 by norm_num]
      linarith

theorem zero_bound {a : CompArgs} (h : a.error = 0) : a.bound = FP.zero := by
  unfold CompArgs.bound
  rw [h]; decide +kernel

/-- **C114.** `atsc` with `--error 0` and otherwise the default compressor and level (or fewer samples than the level looks at), on samples of which the finite
ones are decimals with at most five digits after the point, different ones being told apart by single precision: uncompressing gives back the values of all
finite samples, in order. -/
theorem C114_lossless (E : Ext) (hE : E.Lawful) (hI : E.Interpolates) (p : Profile) (data : List F64) (a : CompArgs) (ha : a.Valid) (hp : FewEnough p data)
    (hc : a.compressor = .auto) (h0 : a.error = 0) (hlv : a.level = 0 ∨ data.length < sampleSize a.level)
    (h5 : ∀ x ∈ data, x.isFinite = true → Decimal5 x)
    (hd : ∀ x ∈ data, x.isFinite = true → ∀ y ∈ data, y.isFinite = true → ToldApart x y) :
    ∃ bs, compressData E p data a = .ok bs ∧
      (bs.length < 2 ^ 64 → ∃ out, decompressData E bs = .ok out ∧ SameValues out (finiteSamples data)) := by
  obtain ⟨ex, s, h1, h2, h3, h4, h5'⟩ := pipeline E hE p data a ha hp
  refine ⟨_, h2, fun hl => ?_⟩
  rw [decompressData_ok h1 (fun x hx => (h4 x hx).2.2.1) hl, ← h3]
  obtain ⟨out, o1, o2⟩ := concat_forall2 (E := E) (p := p) (a := a) (fun o x => o.val = x.val ∧ o.isFinite = true ∧ x.isFinite = true) ex (fun x hx => by
    obtain ⟨q1, q2, q3, q4⟩ := h4 x hx
    have hsub : ∀ y ∈ x.2, y ∈ finiteSamples data := by
      intro y hy
      rw [← h3]
      exact List.mem_flatten.2 ⟨x.2, List.mem_map.2 ⟨x, hx, rfl⟩, hy⟩
    have hmem : ∀ y ∈ x.2, y ∈ data := fun y hy => (List.mem_filter.1 (hsub y hy)).1
    have hlen : x.2.length ≤ data.length := by
      have s1 : x.2.length ≤ (ex.map Prod.snd).flatten.length := (List.sublist_flatten_of_mem (List.mem_map.2 ⟨x, hx, rfl⟩)).length_le
      rw [h3] at s1
      exact le_trans s1 (List.length_filter_le _ _)
    have hne := List.ne_nil_of_length_pos q2
    have hss : x.2.length < sampleSize a.level := by
      rcases hlv with h0 | h0
      · rw [h0]; exact lt_of_le_of_lt q3 (by decide)
      · exact lt_of_le_of_lt hlen h0
    rw [op_is_call a x q1, hc, zero_bound h0]
    obtain ⟨g, g1, -, -⟩ := C25_succeeds E hE p Stream.new (fun _ => by decide) x.2 hne FP.zero zero32_le a.level ha.2
    obtain ⟨out, d1, d2⟩ := C28_exact E hE hI p Stream.new x.2 hne q4 (fun y hy => decimal5_inRange (h5 y (hmem y hy) (q4 y hy))) a.level ha.2 hss g g1
    have hs : SameValues out x.2 := by
      refine d2.2 ?_
      by_cases hcst : ∀ u ∈ x.2, ∀ v ∈ x.2, u.val = v.val
      · exact .inl hcst
      · refine .inr ⟨fun hone => hcst fun u hu v hv => ?_, fun _ _ y hy => decimal5_survives (q4 y hy) (h5 y (hmem y hy) (q4 y hy))⟩
        by_contra huv
        have hne := hd u (hmem u hu) (q4 u hu) v (hmem v hv) (q4 v hv) huv
        have n1 := cvt_not_nan (mb' := 23) (eb' := 8) (isFinite_not_nan (q4 u hu))
        have n2 := cvt_not_nan (mb' := 23) (eb' := 8) (isFinite_not_nan (q4 v hv))
        rcases lt_or_gt_of_ne hne with hlt | hlt
        · have := lt_iff.2 ⟨n1, n2, (val_lt_iff (by decide)).1 hlt⟩
          rw [hone u hu v hv] at this; cases this
        · have := lt_iff.2 ⟨n2, n1, (val_lt_iff (by decide)).1 hlt⟩
          rw [hone v hv u hu] at this; cases this
    refine ⟨out, ?_, List.forall₂_iff_get.2 ⟨hs.1, fun i i1 i2 => hs.2 i i1 i2⟩⟩
    obtain ⟨f, hf, rfl⟩ := adds_inv g1
    show (ChunkOp.bounded x.2 .auto FP.zero a.level).alone E p = .ok out
    rw [alone_eq hf]
    exact d1)
  obtain ⟨l, hg⟩ := List.forall₂_iff_get.1 o2
  exact ⟨out, o1, l, fun i i1 i2 => hg i i1 i2⟩

/-- `f64 as f32` is exact for whole numbers up to `2^24`. -/
theorem narrow_int {x : F64} (hx : x.isFinite = true) {n : ℤ} (hn : n.natAbs ≤ 2 ^ 24) (hxn : x.val = n) : (FP.cvt x : F32).val = n := by
  obtain ⟨k, hk⟩ := exists_pat_mul_pow 23 (m := n.natAbs) (s := qexp 23 8) hn
  have hki : k < infMag 23 8 := by
    apply (magVal_lt_iff (mb := 23)).1
    rw [hk, magVal_infMag 23 (by decide)]
    refine lt_of_le_of_lt (Nat.mul_le_mul_right _ hn) ?_
    rw [← pow_add, ← pow_add]
    exact Nat.pow_lt_pow_right (by decide) (by decide)
  have ha : x.absVal = n.natAbs * 2 ^ qexp 52 11 := by
    have h1 := (val_eq_int (by decide)).1 hxn
    rw [← scaled_natAbs, h1, Int.natAbs_mul]; simp
  have hnum : x.absVal * 2 ^ qexp 23 8 = magVal 23 k * 2 ^ qexp 52 11 := by rw [ha, hk]; ring
  rw [cvt_finite_eq hx, hnum]
  have hp : (ofRound x.sign (magVal 23 k * 2 ^ qexp 52 11) (2 ^ qexp 52 11) : F32) = ofPat x.sign k := by
    unfold ofRound; rw [roundPat_exact 23 k (qpow_pos 52 11)]
  rw [hp, ← hxn, val_sgn (by decide), val_sgn (by decide)]
  have h1 : (ofPat x.sign k : F32).absVal = magVal 23 k := absVal_ofPat (by omega)
  have h2 : (ofPat x.sign k : F32).sign = x.sign := rfl
  rw [h1, h2, hk, ha]
  push_cast
  rw [mul_div_assoc, mul_div_assoc, div_self (qpow_posQ 23 8).ne', div_self (qpow_posQ 52 11).ne']

/-- A whole number is its hundred thousandfold over a hundred thousand, exactly. -/
theorem whole_div {n : ℤ} (hn : n.natAbs ≤ 2 ^ 24) : ((F64.lit (n * 10 ^ 5)).div (F64.lit (10 ^ 5))).val = n := by
  have h5 : ((10 : ℤ) ^ 5) = 100000 := by norm_num
  obtain ⟨av, af⟩ := F64.lit_exact (n := n * 10 ^ 5) (by rw [h5]; omega)
  obtain ⟨bv, bf⟩ := F64.lit_exact (n := 10 ^ 5) (by decide)
  have ha : (F64.lit (n * 10 ^ 5)).absVal = n.natAbs * 100000 * 2 ^ qexp 52 11 := by
    rw [← scaled_natAbs, av, Int.natAbs_mul, Int.natAbs_mul]; simp
  have hb : (F64.lit (10 ^ 5)).absVal = 100000 * 2 ^ qexp 52 11 := by
    rw [← scaled_natAbs, bv, Int.natAbs_mul]; simp
  have hav : (F64.lit (n * 10 ^ 5)).val = ((n * 10 ^ 5 : ℤ) : ℚ) := (val_eq_int (by decide)).2 av
  have hbv : (F64.lit (10 ^ 5)).val = ((10 ^ 5 : ℤ) : ℚ) := (val_eq_int (by decide)).2 bv
  generalize F64.lit (n * 10 ^ 5) = a at *
  generalize F64.lit (10 ^ 5) = b at *
  have hb0 : b.absVal ≠ 0 := by rw [hb]; exact (Nat.mul_pos (by norm_num) (qpow_pos 52 11)).ne'
  obtain ⟨k, hk⟩ := exists_pat_mul_pow 52 (m := n.natAbs) (s := qexp 52 11) (le_trans hn (by norm_num))
  have hki : k < infMag 52 11 := by
    apply (magVal_lt_iff (mb := 52)).1
    rw [hk, magVal_infMag 52 (by decide)]
    refine lt_of_le_of_lt (Nat.mul_le_mul_right _ hn) ?_
    rw [← pow_add, ← pow_add]
    exact Nat.pow_lt_pow_right (by decide) (by decide)
  have e : a.div b = ofPat (a.sign != b.sign) k := by
    have e1 : a.div b = ofRound (a.sign != b.sign) (a.absVal * 2 ^ qexp 52 11) b.absVal := by
      unfold FP.div
      rw [isFinite_not_nan af, isFinite_not_nan bf, isFinite_not_inf af, isFinite_not_inf bf]
      simp only [hb0, Bool.or_self, Bool.false_eq_true, if_false]
    have e2 : a.absVal * 2 ^ qexp 52 11 = magVal 52 k * b.absVal := by rw [ha, hb, hk]; ring
    rw [e1, e2]
    unfold ofRound
    rw [roundPat_exact 52 k (Nat.pos_of_ne_zero hb0)]
  have hq : a.val / b.val = n := by
    rw [hav, hbv]; push_cast; field_simp
  have habs : |(a.div b).val| = |(n : ℚ)| := by
    have h1 : (ofPat (a.sign != b.sign) k : F64).absVal = magVal 52 k := absVal_ofPat (by omega)
    rw [e, abs_val (by decide), h1, hk]
    push_cast
    rw [mul_div_assoc, div_self (qpow_posQ 52 11).ne', mul_one, ← Int.cast_abs, Int.abs_eq_natAbs]
    simp
  have hN : |(n : ℚ)| ≤ 2 ^ 24 := by
    rw [← Int.cast_abs, Int.abs_eq_natAbs]
    have : ((n.natAbs : ℤ) : ℚ) ≤ ((2 ^ 24 : ℤ) : ℚ) := by exact_mod_cast hn
    exact le_trans this (by norm_num)
  have hd := (div_err af bf (by rw [hbv]; norm_num) (by rw [hq]; exact le_trans hN (big_le (by norm_num)))).2
  rw [hq] at hd
  have hu : ulpErr (n : ℚ) ≤ 1 / 2 := by
    unfold ulpErr
    refine max_le (le_trans (inv_pow_le (by norm_num : 1 ≤ 1075)) (by norm_num)) ?_
    rw [div_le_iff₀ (by norm_num)]
    exact le_trans hN (by norm_num)
  rcases abs_eq_abs.1 habs with h | h
  · exact h
  · rw [h] at hd ⊢
    have h2 : |(n : ℚ)| ≤ 1 / 4 := by
      have : |-(n : ℚ) - n| = 2 * |(n : ℚ)| := by
        rw [show -(n : ℚ) - n = -(2 * n) by ring, abs_neg, abs_mul]; norm_num
      rw [this] at hd; linarith
    have h3 : |n| < 1 := by
      have : ((|n| : ℤ) : ℚ) < ((1 : ℤ) : ℚ) := by rw [Int.cast_abs]; push_cast; linarith
      exact_mod_cast this
    have : n = 0 := Int.abs_lt_one_iff.1 h3
    rw [this]; simp

/-- **C114 for whole numbers.** With `--error 0` and the default compressor and level, samples of which the finite ones are whole numbers up to `2^24` (counters,
gauges in units) come back with their values. -/
theorem C114_whole (E : Ext) (hE : E.Lawful) (hI : E.Interpolates) (p : Profile) (data : List F64) (a : CompArgs) (ha : a.Valid) (hp : FewEnough p data)
    (hc : a.compressor = .auto) (h0 : a.error = 0) (hlv : a.level = 0 ∨ data.length < sampleSize a.level)
    (hw : ∀ x ∈ data, x.isFinite = true → ∃ n : ℤ, |n| ≤ 2 ^ 24 ∧ x.val = n) :
    ∃ bs, compressData E p data a = .ok bs ∧
      (bs.length < 2 ^ 64 → ∃ out, decompressData E bs = .ok out ∧ SameValues out (finiteSamples data)) := by
  refine C114_lossless E hE hI p data a ha hp hc h0 hlv (fun x hx hf => ?_) (fun x hx hf y hy hg hne => ?_)
  · obtain ⟨n, hn, hv⟩ := hw x hx hf
    refine ⟨n * 10 ^ 5, by rw [abs_mul]; have : |(10 : ℤ) ^ 5| = 100000 := by norm_num
                           rw [this]; omega, ?_⟩
    rw [hv, whole_div (by rw [Int.abs_eq_natAbs] at hn; omega)]
  · obtain ⟨n, hn, hv⟩ := hw x hx hf
    obtain ⟨k, hk, hu⟩ := hw y hy hg
    rw [Int.abs_eq_natAbs] at hn hk
    rw [narrow_int hf (by omega) hv, narrow_int hg (by omega) hu, ← hv, ← hu]
    exact hne

/-- With the reconstructed interpolation crates nothing is assumed of the interpolation. -/
theorem C114_reconstructed (E : Ext) (hE : E.Lawful) (p : Profile) (data : List F64) (a : CompArgs) (ha : a.Valid) (hp : FewEnough p data)
    (hc : a.compressor = .auto) (h0 : a.error = 0) (hlv : a.level = 0 ∨ data.length < sampleSize a.level)
    (h5 : ∀ x ∈ data, x.isFinite = true → Decimal5 x)
    (hd : ∀ x ∈ data, x.isFinite = true → ∀ y ∈ data, y.isFinite = true → ToldApart x y) :
    ∃ bs, compressData E.withInterp p data a = .ok bs ∧
      (bs.length < 2 ^ 64 → ∃ out, decompressData E.withInterp bs = .ok out ∧ SameValues out (finiteSamples data)) :=
  C114_lossless E.withInterp ⟨hE.fwd_len, hE.inv_len⟩ (withInterp_interpolates E) p data a ha hp hc h0 hlv h5 hd

/-- **C114, the two commands.** Any command line that compresses the file `path` with an error of 0 percent and otherwise the default compressor and level (or
fewer samples than the level looks at), then any command line that uncompresses the `.bro` file beside it: both end with status 0, write only their output
file, and the `.wbro` file holds the values of the finite samples that were read, in order. -/
theorem C114_session (env : Env) (hE : env.E.Lawful) (hI : env.E.Interpolates) (ha : 8 ∣ env.addr) (stat1 stat2 : List Char → Input) (ts1 ts2 : List Tok) (a1 a2 : AtscArgs)
    (h1 : atscParse ts1 = .ok a1) (h2 : atscParse ts2 = .ok a2) (hu1 : a1.run.uncompress = false) (hu2 : a2.run.uncompress = true)
    (path : FPath) (hs1 : stat1 a1.input = .file path) (hs2 : stat2 a2.input = .file (path.withExt "bro"))
    (fs : Fs) (c : Bytes) (hf : fs path = some c) (d : List F64) (hg : Gives env a1.run c d) (hd : d.length ≤ 2 ^ 28) (hp : FewEnough env.p d)
    (hc : a1.run.comp.compressor = .auto) (h0 : a1.run.comp.error = 0) (hlv : a1.run.comp.level = 0 ∨ d.length < sampleSize a1.run.comp.level)
    (hx : ∃ x ∈ d, x.isFinite = true) (h5 : ∀ x ∈ d, x.isFinite = true → Decimal5 x)
    (hta : ∀ x ∈ d, x.isFinite = true → ∀ y ∈ d, y.isFinite = true → ToldApart x y) :
    ∃ bs, atscMain env stat1 fs ts1 = (fs.write (path.withExt "bro") bs, 0) ∧
      (bs.length < 2 ^ 64 → ∃ out f2,
        atscMain env stat2 (fs.write (path.withExt "bro") bs) ts2 = ((fs.write (path.withExt "bro") bs).write (path.withExt "wbro") f2, 0) ∧
        WavBrro.fromFile env.addr f2 = .ok (.samples out) ∧ SameValues out (finiteSamples d)) := by
  obtain ⟨bs, c1, c2, c3⟩ := C107_session env hE ha stat1 stat2 ts1 ts2 a1 a2 h1 h2 hu1 hu2 path hs1 hs2 fs c hf d hg hd hp hx
  refine ⟨bs, c2, fun hl => ?_⟩
  obtain ⟨out, f2, g1, -, g3, g4⟩ := c3 hl
  obtain ⟨bs', r1, r2⟩ := C114_lossless env.E hE hI env.p d a1.run.comp (C104_ranges ts1 a1 h1) hp hc h0 hlv h5 hta
  rw [c1] at r1
  obtain rfl := Except.ok.inj r1
  obtain ⟨out', k1, k2⟩ := r2 hl
  rw [g1] at k1
  obtain rfl := Except.ok.inj k1
  exact ⟨out, f2, g3, g4, k2⟩

/-- `--error 0` is not lossless for samples that single precision cannot tell apart: `[2^24, 2^24 + 1]` comes back as `[2^24, 2^24]`; nor for more than five
decimals: 1.000001 comes back as 1. -/
theorem C114_refuted : Ext.dummy.Lawful ∧ Ext.dummy.Interpolates ∧
    (∃ bs, compressData Ext.dummy .debug collapsedPair ⟨.auto, 0, 0⟩ = .ok bs ∧ decompressData Ext.dummy bs = .ok [F64.lit 16777216, F64.lit 16777216]) ∧
    ∃ bs out, compressData Ext.dummy .debug manyDecimals ⟨.auto, 0, 0⟩ = .ok bs ∧ decompressData Ext.dummy bs = .ok out ∧ out[0]? = some (F64.lit 1) ∧
      manyDecimals[0]? = some millionth ∧ (F64.lit 1).feq millionth = false := by
  refine ⟨Ext.dummy_lawful, Ext.dummy_interpolates, ?_, ?_⟩
  · have h : okAnd (compressData Ext.dummy .debug collapsedPair ⟨.auto, 0, 0⟩) (fun bs =>
        okAnd (decompressData Ext.dummy bs) fun out => decide (out = [F64.lit 16777216, F64.lit 16777216])) = true := by decide +kernel
    obtain ⟨bs, h1, h⟩ := okAnd_iff.1 h
    obtain ⟨out, h2, h⟩ := okAnd_iff.1 h
    rw [of_decide_eq_true h] at h2
    exact ⟨bs, h1, h2⟩
  · have h : okAnd (compressData Ext.dummy .debug manyDecimals ⟨.auto, 0, 0⟩) (fun bs =>
        okAnd (decompressData Ext.dummy bs) fun out => decide (out[0]? = some (F64.lit 1))) = true := by decide +kernel
    obtain ⟨bs, h1, h⟩ := okAnd_iff.1 h
    obtain ⟨out, h2, h⟩ := okAnd_iff.1 h
    exact ⟨bs, out, h1, h2, of_decide_eq_true h, rfl, by decide +kernel⟩

/-- `atsc -e 0 NAME` is such a command line. -/
theorem C114_words : ∃ a, atscParse ["-e".toList, "0".toList, "in".toList] = .ok a ∧ a.input = "in".toList ∧ a.run.uncompress = false ∧
    a.run.csv = false ∧ a.run.comp = ⟨.auto, 0, 0⟩ := by
  have h : (match atscParse ["-e".toList, "0".toList, "in".toList] with
      | .ok a => decide (a.input = "in".toList ∧ a.run.uncompress = false ∧ a.run.csv = false ∧ a.run.comp.compressor = .auto ∧ a.run.comp.error = 0 ∧
          a.run.comp.level = 0)
      | .error _ => false) = true := by decide +kernel
  cases hp : atscParse ["-e".toList, "0".toList, "in".toList] with
  | error e => rw [hp] at h; cases h
  | ok a =>
    rw [hp] at h
    obtain ⟨q1, q2, q3, q4, q5, q6⟩ := of_decide_eq_true h
    refine ⟨a, rfl, q1, q2, q3, ?_⟩
    cases hc : a.run.comp
    rw [hc] at q4 q5 q6
    simp_all

/-- The session on the demonstration file (5, NaN, 5, -7): `atsc -e 0 in`, then `atsc -u out`. -/
example : ∃ bs, atscMain demoEnv sessionStat demoFs ["-e".toList, "0".toList, "in".toList] = (demoFs.write ⟨"x", "bro"⟩ bs, 0) ∧
    (bs.length < 2 ^ 64 → ∃ out f2,
      atscMain demoEnv sessionStat (demoFs.write ⟨"x", "bro"⟩ bs) [['-', 'u'], "out".toList] = ((demoFs.write ⟨"x", "bro"⟩ bs).write ⟨"x", "wbro"⟩ f2, 0) ∧
      WavBrro.fromFile 16 f2 = .ok (.samples out) ∧ SameValues out [F64.lit 5, F64.lit 5, F64.lit (-7)]) := by
  obtain ⟨a1, p1, i1, u1, v1, k1⟩ := C114_words
  obtain ⟨a2, p2, i2, u2⟩ := (C107_words "out".toList (by simp) (Or.inr (by decide +kernel))).2
  obtain ⟨f, w1, -⟩ := C39_round_trip [F64.lit 5, FP.nan, F64.lit 5, F64.lit (-7)] (by simp) 16 (by decide)
  have l5 := lit_val (n := 5) (by decide)
  have l7 := lit_val (n := -7) (by decide)
  have hw : ∀ x ∈ [F64.lit 5, FP.nan, F64.lit 5, F64.lit (-7)], x.isFinite = true → x.val = ((5 : ℤ) : ℚ) ∨ x.val = ((-7 : ℤ) : ℚ) := by
    intro x hx hf
    simp only [List.mem_cons, List.not_mem_nil, or_false] at hx
    rcases hx with rfl | rfl | rfl | rfl
    · exact .inl l5.2
    · exact absurd hf (by decide +kernel)
    · exact .inl l5.2
    · exact .inr l7.2
  have hfin : finiteSamples [F64.lit 5, FP.nan, F64.lit 5, F64.lit (-7)] = [F64.lit 5, F64.lit 5, F64.lit (-7)] := by decide +kernel
  rw [← hfin]
  refine C114_session demoEnv Ext.dummy_lawful Ext.dummy_interpolates (by decide) sessionStat sessionStat _ _ a1 a2 p1 p2 u1 u2 ⟨"x", "wbro"⟩
    (by rw [i1]; rfl) (by rw [i2]; unfold sessionStat; rw [if_neg (by decide +kernel), if_pos rfl]; rfl) demoFs f
    (by unfold demoFs; rw [if_pos rfl, w1]; rfl) _ (.wbro v1 w1) (by simp) (fun _ => by decide) (by rw [k1]) (by rw [k1]) (.inl (by rw [k1]))
    ⟨F64.lit 5, by simp, by decide +kernel⟩ ?_ ?_
  · intro x hx hf
    rcases hw x hx hf with h | h
    · exact ⟨5 * 10 ^ 5, by decide, by rw [h, whole_div (by decide)]⟩
    · exact ⟨-7 * 10 ^ 5, by decide, by rw [h, whole_div (by decide)]⟩
  · intro x hx hf y hy hg hne
    rcases hw x hx hf with h | h <;> rcases hw y hy hg with k | k <;> rw [narrow_int hf (by decide) h, narrow_int hg (by decide) k] <;>
      rw [h, k] at hne <;> exact hne

end Atsc
