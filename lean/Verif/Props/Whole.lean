import Verif.Props.Bits
import Verif.Props.Recompress
/- C127: which files Noop gives back. -/
namespace Atsc
open FP

/-- Specification: the sample is a whole number from `-2^63` to `2^63`, and not the negative zero. -/
def WholeSample (x : F64) : Prop := (∃ n : ℤ, -2 ^ 63 ≤ n ∧ n ≤ 2 ^ 63 ∧ x.val = n) ∧ x ≠ FP.negZero

theorem noopBack_not_negZero (x : F64) : noopBack x ≠ FP.negZero := by
  rcases noop_int_cases x with h | h | ⟨n, h, h1, h2, h3, h4⟩
  · unfold noopBack; rw [h]; decide +kernel
  · unfold noopBack; rw [h]; decide +kernel
  · by_cases hn : n = 0
    · unfold noopBack; rw [h, hn]; decide +kernel
    · intro hz
      rw [hz, show (FP.negZero : F64).val = 0 by unfold FP.val; norm_num [FP.negZero, FP.ofPat]] at h4
      exact hn (by exact_mod_cast h4.symm)

theorem zero_cases {x : F64} (h : x.val = 0) : x = FP.zero ∨ x = FP.negZero := by
  have hm : x.mag.val = 0 := by
    have hs := (val_eq_int (x := x) (n := 0) (by decide)).1 (by rw [h]; rfl)
    have h0 := scaled_natAbs x
    rw [show x.scaled = 0 by simpa using hs] at h0
    exact magVal_eq_zero.1 h0.symm
  cases hs : x.sign
  · exact .inl (ext_iff'.2 ⟨hs, hm⟩)
  · exact .inr (ext_iff'.2 ⟨hs, hm⟩)

theorem noopBack_val {x : F64} (hx : x.isFinite = true) : (noopBack x).val = noopValue x.val := (noop_sample_finite x hx).2

theorem noopBack_whole (x : F64) : WholeSample (noopBack x) := by
  refine ⟨?_, noopBack_not_negZero x⟩
  rcases noop_int_cases x with h | h | ⟨n, h, h1, h2, h3, h4⟩
  · refine ⟨2 ^ 63, by norm_num, le_refl _, ?_⟩
    unfold noopBack; rw [h]
    exact (val_eq_int (by decide)).2 (by decide +kernel)
  · refine ⟨-2 ^ 63, le_refl _, by norm_num, ?_⟩
    unfold noopBack; rw [h]
    exact (val_eq_int (by decide)).2 (by decide +kernel)
  · exact ⟨n, h1, h2.le, h4⟩

theorem noopBack_eq_iff {x : F64} (hx : x.isFinite = true) : noopBack x = x ↔ WholeSample x := by
  constructor
  · intro h
    rw [← h]; exact noopBack_whole x
  · rintro ⟨⟨n, h1, h2, h3⟩, hz⟩
    have hv : (noopBack x).val = x.val := by
      rw [noopBack_val hx, h3, C13_noop_integers n ⟨h1, h2⟩]
    by_cases h0 : x.val = 0
    · rcases zero_cases (hv.trans h0) with h | h
      · rw [h]
        rcases zero_cases h0 with g | g
        · exact g.symm
        · exact absurd g hz
      · exact absurd h (noopBack_not_negZero x)
    · exact bits_of_val hv (by rw [hv]; exact h0)

theorem noop_whole_file (E : Ext) (hE : E.Lawful) (p : Profile) (data : List F64) (a : CompArgs) (ha : a.Valid) (hp : FewEnough p data)
    (hc : a.compressor = .noop) :
    ∃ bs, compressData E p data a = .ok bs ∧ (bs.length < 2 ^ 64 → decompressData E bs = .ok ((finiteSamples data).map noopBack)) := by
  obtain ⟨ex, s, h1, h2, h3, h4, h5⟩ := pipeline E hE p data a ha hp
  refine ⟨_, h2, fun hl => ?_⟩
  obtain ⟨out, o1, o2⟩ := concat_forall2 (E := E) (p := p) (a := a) (fun (o x : F64) => o = noopBack x) ex (fun x hx => by
    obtain ⟨q1, q2, q3, q4⟩ := h4 x hx
    obtain ⟨st, hst⟩ := stats_ok (List.ne_nil_of_length_pos q2)
    have hop : a.op x = .using x.2 .noop := by unfold CompArgs.op; rw [q1, hc]; rfl
    refine ⟨x.2.map noopBack, ?_, ?_⟩
    · have hf : (a.op x).frame E = .ok { Frame.new (some .noop) with sampleCount := x.2.length, data := noop x.2 } := by
        rw [hop]
        show (Compressor.noop.compress E x.2 >>= _) = _
        simp only [Compressor.compress, hst, ok_bind]
      rw [alone_eq hf]
      exact noopToData_noop x.2 x.2.length (by omega)
    · exact List.forall₂_iff_get.2 ⟨by simp, fun i i1 i2 => by simp⟩)
  have he : out = (finiteSamples data).map noopBack := by
    rw [← h3]
    refine List.ext_getElem? fun i => ?_
    obtain ⟨ol, og⟩ := List.forall₂_iff_get.1 o2
    by_cases hi : i < out.length
    · rw [List.getElem?_eq_getElem hi, List.getElem?_eq_getElem (by rw [List.length_map]; omega), List.getElem_map]
      exact congrArg some (og i hi (by omega))
    · rw [List.getElem?_eq_none (by omega), List.getElem?_eq_none (by rw [List.length_map]; omega)]
  rw [decompressData_ok h1 (fun x hx => (h4 x hx).2.2.1) hl, o1, he]

theorem map_noopBack_eq {l : List F64} (hf : AllFinite l) : l.map noopBack = l ↔ ∀ x ∈ l, WholeSample x := by
  constructor
  · intro h x hx
    have := List.map_inj_left.1 (h.trans l.map_id.symm) x hx
    exact (noopBack_eq_iff (hf x hx)).1 this
  · intro h
    conv_rhs => rw [← l.map_id]
    exact List.map_congr_left fun x hx => (noopBack_eq_iff (hf x hx)).2 (h x hx)

theorem finiteSamples_finite (data : List F64) : AllFinite (finiteSamples data) := fun _ hx => (List.mem_filter.1 hx).2

/-- **C127, in memory.** With `--compressor noop` every finite sample comes back as a whole number from `-2^63` to `2^63`, the nearest one (`noopValue`: halves away
from zero), never as a negative zero; and all finite samples come back bit for bit exactly if they all are such numbers already. -/
theorem C127_bits (E : Ext) (hE : E.Lawful) (p : Profile) (data : List F64) (a : CompArgs) (ha : a.Valid) (hp : FewEnough p data) (hc : a.compressor = .noop) :
    ∃ bs, compressData E p data a = .ok bs ∧ (bs.length < 2 ^ 64 → ∃ out, decompressData E bs = .ok out ∧
      List.Forall₂ (fun (o x : F64) => WholeSample o ∧ o.val = (noopValue x.val : ℚ)) out (finiteSamples data) ∧
      (out = finiteSamples data ↔ ∀ x ∈ finiteSamples data, WholeSample x)) := by
  obtain ⟨bs, h1, h2⟩ := noop_whole_file E hE p data a ha hp hc
  refine ⟨bs, h1, fun hl => ⟨_, h2 hl, ?_, map_noopBack_eq (finiteSamples_finite data)⟩⟩
  rw [List.forall₂_map_left_iff, List.forall₂_same]
  exact fun x hx => ⟨noopBack_whole x, noopBack_val (finiteSamples_finite data x hx)⟩

/-- What two command lines do to a WBRO file, with any compressor: whatever says when the samples come back says when the file does. -/
theorem file_restored (env : Env) (hE : env.E.Lawful) (ha : 8 ∣ env.addr) (stat1 stat2 : List Char → Input) (ts1 ts2 : List Tok) (a1 a2 : AtscArgs)
    (h1 : atscParse ts1 = .ok a1) (h2 : atscParse ts2 = .ok a2) (hu1 : a1.run.uncompress = false) (hu2 : a2.run.uncompress = true)
    (hv1 : a1.run.csv = false)
    (path : FPath) (hs1 : stat1 a1.input = .file path) (hs2 : stat2 a2.input = .file (path.withExt "bro"))
    (fs : Fs) (c : Bytes) (hc : fs path = some c) (d : List F64) (hg : WavBrro.toFileWithData d = .ok c) (hd : d.length ≤ 2 ^ 28) (hp : FewEnough env.p d)
    (hx : ∃ x ∈ d, x.isFinite = true) {Q : Prop}
    (hQ : ∀ bs out, compressData env.E env.p d a1.run.comp = .ok bs → bs.length < 2 ^ 64 → decompressData env.E bs = .ok out → (out = finiteSamples d ↔ Q)) :
    ∃ bs, atscMain env stat1 fs ts1 = (fs.write (path.withExt "bro") bs, 0) ∧
      (bs.length < 2 ^ 64 → ∃ f2, (∀ fs2 : Fs, fs2 (path.withExt "bro") = some bs →
          atscMain env stat2 fs2 ts2 = (fs2.write (path.withExt "wbro") f2, 0)) ∧
        (f2 = c ↔ (∀ x ∈ d, x.isFinite = true) ∧ Q)) := by
  obtain ⟨bs, c1, c2, c3⟩ := C107_session env hE ha stat1 stat2 ts1 ts2 a1 a2 h1 h2 hu1 hu2 path hs1 hs2 fs c hc d (.wbro hv1 hg) hd hp hx
  refine ⟨bs, c2, fun hl => ?_⟩
  obtain ⟨x, hx1, hx2⟩ := hx
  obtain ⟨bs', e1, hread, -⟩ := C53_accepted env.E hE env.p d a1.run.comp (C104_ranges ts1 a1 h1) hp x hx1 hx2
  rw [c1] at e1
  obtain rfl := Except.ok.inj e1
  obtain ⟨out, k1, o1, o2, -⟩ := c3 hl
  have k2 := hQ bs out c1 hl o1
  have hle : (finiteSamples d).length ≤ d.length := List.length_filter_le _ _
  obtain ⟨f2, g1, g2⟩ := C39_round_trip out (by omega) env.addr ha
  obtain ⟨f, g3, g4⟩ := C39_round_trip d hd env.addr ha
  rw [hg] at g3
  obtain rfl := Except.ok.inj g3
  have hfin : finiteSamples d = d ↔ ∀ x ∈ d, x.isFinite = true := List.filter_eq_self
  refine ⟨f2, fun fs2 hf2 => ?_, ?_⟩
  · have ow : outputPath a2.run (path.withExt "bro") = path.withExt "wbro" := by unfold outputPath FPath.withExt; rw [hu2]; rfl
    rw [(C104_refused env stat2 _ ts2).2.2.2 a2 h2, hs2, C88_exact]
    have hb : 12 ≤ bs.length ∧ bs.take 4 = [66, 82, 82, 79] := by
      unfold broRead at hread
      by_cases hl : bs.length < 12
      · rw [if_pos hl] at hread; cases hread
      · rw [if_neg hl] at hread
        by_cases h4 : bs.take 4 = brro
        · exact ⟨by omega, h4⟩
        · rw [if_neg h4] at hread; cases hread
    exact ⟨bs, hf2, .inl ⟨f2, .uncompress hu2 hb.1 hb.2 o1 g1, by rw [ow]⟩⟩
  · constructor
    · rintro rfl
      rw [g2] at g4
      obtain rfl : out = d := by injection Except.ok.inj g4
      have hf : finiteSamples out = out := List.filter_eq_self.2 fun x hx => by
        by_contra hne
        have : (finiteSamples out).length < out.length := List.length_filter_lt_length_iff_exists.2 ⟨x, hx, hne⟩
        omega
      rw [hf] at k2
      exact ⟨hfin.1 hf, k2.1 rfl⟩
    · rintro ⟨w1, w2⟩
      rw [hfin.2 w1] at k2
      have := k2.2 w2
      subst this
      rw [hg] at g1
      exact (Except.ok.inj g1).symm

/-- **C127, the file.** `atsc --compressor noop` on a WBRO file written from `d`, then `atsc -u` on the `.bro` file, also when the original has been deleted or moved in
between and other files have changed: the second command writes a WBRO file that is byte for byte the original exactly if all samples are whole numbers from `-2^63` to
`2^63` and none is a negative zero. -/
theorem C127_file (env : Env) (hE : env.E.Lawful) (ha : 8 ∣ env.addr) (stat1 stat2 : List Char → Input) (ts1 ts2 : List Tok) (a1 a2 : AtscArgs)
    (h1 : atscParse ts1 = .ok a1) (h2 : atscParse ts2 = .ok a2) (hu1 : a1.run.uncompress = false) (hu2 : a2.run.uncompress = true)
    (hv1 : a1.run.csv = false) (hn : a1.run.comp.compressor = .noop)
    (path : FPath) (hs1 : stat1 a1.input = .file path) (hs2 : stat2 a2.input = .file (path.withExt "bro"))
    (fs : Fs) (c : Bytes) (hc : fs path = some c) (d : List F64) (hg : WavBrro.toFileWithData d = .ok c) (hd : d.length ≤ 2 ^ 28) (hp : FewEnough env.p d)
    (hx : ∃ x ∈ d, x.isFinite = true) :
    ∃ bs, atscMain env stat1 fs ts1 = (fs.write (path.withExt "bro") bs, 0) ∧
      (bs.length < 2 ^ 64 → ∃ f2, (∀ fs2 : Fs, fs2 (path.withExt "bro") = some bs →
          atscMain env stat2 fs2 ts2 = (fs2.write (path.withExt "wbro") f2, 0)) ∧
        (f2 = c ↔ ∀ x ∈ d, x.isFinite = true ∧ WholeSample x)) := by
  obtain ⟨bs, r1, r2⟩ := file_restored env hE ha stat1 stat2 ts1 ts2 a1 a2 h1 h2 hu1 hu2 hv1 path hs1 hs2 fs c hc d hg hd hp hx
    (Q := ∀ x ∈ finiteSamples d, WholeSample x) (by
      intro bs out q1 q2 q3
      obtain ⟨bs', w1, w2⟩ := C127_bits env.E hE env.p d a1.run.comp (C104_ranges ts1 a1 h1) hp hn
      rw [q1] at w1
      obtain rfl := Except.ok.inj w1
      obtain ⟨out', w3, -, w4⟩ := w2 q2
      rw [q3] at w3
      obtain rfl := Except.ok.inj w3
      exact w4)
  refine ⟨bs, r1, fun hl => ?_⟩
  obtain ⟨f2, k1, k2⟩ := r2 hl
  refine ⟨f2, k1, k2.trans ⟨fun h x hx => ⟨h.1 x hx, h.2 x (List.mem_filter.2 ⟨hx, h.1 x hx⟩)⟩, fun h => ⟨fun x hx => (h x hx).1, fun x hx => ?_⟩⟩⟩
  exact (h x (List.mem_filter.1 hx).1).2

/-- C127: samples that once came out of a Noop file come back bit for bit from then on. -/
theorem C127_again (E : Ext) (hE : E.Lawful) (p : Profile) (data out : List F64) (a b : CompArgs) (ha : a.Valid) (hb : b.Valid) (hp : FewEnough p data)
    (hc : a.compressor = .noop) (hc' : b.compressor = .noop) (bs : Bytes) (h : compressData E p data a = .ok bs) (hl : bs.length < 2 ^ 64)
    (hd : decompressData E bs = .ok out) (hp' : FewEnough p out) :
    ∃ bs', compressData E p out b = .ok bs' ∧ (bs'.length < 2 ^ 64 → decompressData E bs' = .ok out) := by
  obtain ⟨bs0, w1, w2⟩ := noop_whole_file E hE p data a ha hp hc
  rw [h] at w1
  obtain rfl := Except.ok.inj w1
  rw [w2 hl] at hd
  obtain rfl := Except.ok.inj hd
  obtain ⟨bs', g1, g2⟩ := C127_bits E hE p _ b hb hp' hc'
  refine ⟨bs', g1, fun hl' => ?_⟩
  obtain ⟨out', k1, -, k2⟩ := g2 hl'
  have hf : finiteSamples ((finiteSamples data).map noopBack) = (finiteSamples data).map noopBack := List.filter_eq_self.2 fun x hx => by
    obtain ⟨y, -, rfl⟩ := List.mem_map.1 hx
    exact noopBack_finite y
  rw [k1]
  congr 1
  rw [hf] at k2
  refine k2.2 fun x hx => ?_
  obtain ⟨y, -, rfl⟩ := List.mem_map.1 hx
  exact noopBack_whole y

/-- **C127 [Noop gives every file back].** It does not: 1/2 comes back as 1, and a negative zero as zero. -/
theorem C127_refuted : ∃ bs, compressData Ext.dummy .debug [oneHalf, FP.negZero] ⟨.noop, 0, 0⟩ = .ok bs ∧
    decompressData Ext.dummy bs = .ok [F64.lit 1, FP.zero] := by
  have h : okAnd (compressData Ext.dummy .debug [oneHalf, FP.negZero] ⟨.noop, 0, 0⟩) (fun bs =>
      okAnd (decompressData Ext.dummy bs) fun out => decide (out = [F64.lit 1, FP.zero])) = true := by decide +kernel
  obtain ⟨bs, h1, h2⟩ := okAnd_iff.1 h
  obtain ⟨out, h3, h4⟩ := okAnd_iff.1 h2
  exact ⟨bs, h1, by rw [h3, of_decide_eq_true h4]⟩

/-- `WholeSample` both ways. -/
example : WholeSample (F64.lit 5) ∧ WholeSample (F64.lit (-7)) ∧ ¬ WholeSample oneHalf ∧ ¬ WholeSample FP.negZero := by
  have h5 : (F64.lit 5).val = (5 : ℤ) := (lit_val (by decide)).2
  have h7 : (F64.lit (-7)).val = (-7 : ℤ) := (lit_val (by decide)).2
  refine ⟨⟨⟨5, by norm_num, by norm_num, h5⟩, by decide +kernel⟩, ⟨⟨-7, by norm_num, by norm_num, h7⟩, by decide +kernel⟩, ?_, fun h => h.2 rfl⟩
  rintro ⟨⟨n, -, -, hn⟩, -⟩
  rw [oneHalf_val] at hn
  have : (1 : ℚ) = ((2 * n : ℤ) : ℚ) := by push_cast; linarith
  have := Int.cast_injective (α := ℚ) (by simpa using this : ((1 : ℤ) : ℚ) = ((2 * n : ℤ) : ℚ))
  omega

/-- The hypotheses of `C127_bits` are met. -/
example : (⟨.noop, 0, 0⟩ : CompArgs).Valid ∧ FewEnough .debug [F64.lit 5, oneHalf] := ⟨⟨by decide, by decide⟩, fun _ => by decide⟩
end Atsc
