import Verif.Props.Whole
import Verif.Props.Knots
/- C128: files made of constant stretches. -/
namespace Atsc
open FP

/-- Specification: all samples are one double, finite, 0 or of magnitude from `2^-64` to `2^63`, and not the negative zero. -/
def Flat (l : List F64) : Prop := ∃ v : F64, (∀ x ∈ l, x = v) ∧ v.isFinite = true ∧ InRange v ∧ v ≠ FP.negZero

theorem Flat.facts {l : List F64} (h : Flat l) (hne : l ≠ []) : AllFinite l ∧ (∀ x ∈ l, InRange x) ∧ FP.negZero ∉ l ∧
    ∃ st v, DataStats.new l = .ok st ∧ st.min = v ∧ st.max = v ∧ st.max.feq st.min = true ∧ l = List.replicate l.length v ∧ castBD st.bitdepth v = v := by
  obtain ⟨v, h1, h2, h3, h4⟩ := h
  have hf : AllFinite l := fun x hx => by rw [h1 x hx]; exact h2
  have hr : ∀ x ∈ l, InRange x := fun x hx => by rw [h1 x hx]; exact h3
  obtain ⟨st, hst⟩ := stats_ok hne
  obtain ⟨r1, r2, -⟩ := stats_range hne (fun y hy => isFinite_not_nan (hf y hy)) hst
  have e1 := h1 _ r1
  have e2 := h1 _ r2
  refine ⟨hf, hr, fun hz => h4 (h1 _ hz).symm, st, v, hst, e1, e2, by rw [e1, e2]; exact feq_refl (isFinite_not_nan h2), List.eq_replicate_iff.2 ⟨rfl, h1⟩, ?_⟩
  by_cases h0 : v.val = 0
  · have hz : v = FP.zero := (zero_cases h0).resolve_right h4
    by_cases hb : st.bitdepth = .f64
    · rw [hb]; rfl
    · rw [hz]; exact (castBD_zero hb).1
  · have := (castBD_val hf hr hst r1).1
    rw [e1] at this
    exact bits_of_val this (by rw [this]; exact h0)

/-- Specification: what a sample of a flat stretch comes back as: FFT keeps single precision, the others every bit. -/
def backAs (c : CompressorType) (x : F64) : F64 := if c = .fft then toSingle x else x

/-- One frame. -/
theorem flat_alone (E : Ext) (hE : E.Lawful) (p : Profile) (a : CompArgs) (ha : a.Valid) (hno : a.compressor ≠ .noop) (l : List F64) (hne : l ≠ [])
    (hlen : l.length < 2 ^ 62) (h : Flat l) : (a.op (a.compressor.toCompressor, l)).alone E p = .ok (l.map (backAs a.compressor)) := by
  obtain ⟨hf, hr, hz, st, v, hst, e1, e2, hc, hrep, hcast⟩ := h.facts hne
  have use : ∀ (c : Compressor) (bs : Bytes) (out : List F64), c.compress E l = .ok bs → c.decompress E l.length bs = .ok out →
      (ChunkOp.using l c).alone E p = .ok out := by
    intro c bs out h1 h2
    have hfr : (ChunkOp.using l c).frame E = .ok { Frame.new (some c) with sampleCount := l.length, data := bs } := by
      show c.compress E l >>= _ = _
      rw [h1, ok_bind]
    rw [alone_eq hfr]
    exact h2
  have bnd : ∀ (c : Compressor) (bs : Bytes) (out : List F64), c ≠ .auto → c.compressBounded E l (FP.cvt a.bound) = .ok bs →
      c.decompress E l.length bs = .ok out → (ChunkOp.bounded l c a.bound a.level).alone E p = .ok out := by
    intro c bs out hc h1 h2
    have hfr : (ChunkOp.bounded l c a.bound a.level).frame E = .ok { Frame.new (some c) with sampleCount := l.length, data := bs } := by
      have : (ChunkOp.bounded l c a.bound a.level).frame E = (Frame.new (some c)).compressBounded E l a.bound := by
        cases c <;> first | rfl | exact absurd rfl hc
      rw [this]
      show c.compressBounded E l (FP.cvt a.bound) >>= _ = _
      rw [h1, ok_bind]
    rw [alone_eq hfr]
    exact h2
  have same : ∀ c : CompressorType, c ≠ .fft → l.map (backAs c) = l := by
    intro c hc
    have : backAs c = id := by funext x; unfold backAs; rw [if_neg hc]; rfl
    rw [this, List.map_id]
  have poly : ∀ ty : PolyType, (ChunkOp.bounded l ty.comp a.bound a.level).alone E p = .ok l := by
    intro ty
    obtain ⟨c, r, h1, h2, h3⟩ := poly_bounded_cases E l hne ty (FP.cvt a.bound) st hst
    rcases h3 with ⟨_, rfl, _⟩ | ⟨h, _⟩ | ⟨h, _⟩
    · refine bnd ty.comp r.data _ (by cases ty <;> decide) (by rw [(comp_bounded E ty l hne _).2, h1]; rfl) ?_
      rw [comp_decompress, h2, polyToData_enc E _ (Poly.start st ty) (Nat.two_pow_pos 64)]
      unfold Poly.toData
      rw [if_pos (by exact hc)]
      show Except.ok (List.replicate l.length st.max) = _
      rw [e2, ← hrep]
    · rw [hc] at h; exact absurd h (by decide)
    · rw [hc] at h; exact absurd h (by decide)
  have cst : Compressor.constant.decompress E l.length (constantCompressor l st).data = .ok l := by
    rw [constant_decompress_eq]
    show constantToData l.length (Constant.new st.min st.bitdepth).enc = _
    rw [constantToData_enc, e1, hcast, ← hrep]
  cases hcc : a.compressor with
  | noop => exact absurd hcc hno
  | constant =>
    rw [same _ (by decide), CompArgs.op, hcc]
    refine use .constant (constantCompressor l st).data l ?_ cst
    simp only [Compressor.compress, hst, ok_bind]
  | rle =>
    rw [same _ (by decide), CompArgs.op, hcc]
    obtain ⟨bs, out, o1, o2, -, o4⟩ := C125_exact E l hne (by omega) hf hr
    rw [o4.2 (.inl hz)] at o2
    exact use .rle bs l o1 o2
  | fft =>
    have : l.map (backAs .fft) = List.replicate l.length (toSingle v) := by
      have : backAs .fft = toSingle := by funext x; unfold backAs; rw [if_pos rfl]
      rw [this]
      conv_lhs => rw [hrep]
      rw [List.map_replicate]
    rw [this, CompArgs.op, hcc]
    obtain ⟨c, r, h2, h3, h4, h5⟩ := fft_bounded_cases E hE l hne (FP.cvt a.bound) st hst
    have hcs : (Fft.start st).maxValue.feq (Fft.start st).minValue = true := by
      refine (oneSingle_iff hne (fun y hy => isFinite_not_nan (hf y hy)) hst).1 ?_
      intro x hx y hy
      have hx := List.eq_of_mem_replicate (hrep ▸ hx)
      have hy := List.eq_of_mem_replicate (hrep ▸ hy)
      rw [hx, hy]
      cases hlt : (FP.cvt v : F32).lt (FP.cvt v) with
      | false => rfl
      | true => exact absurd (lt_iff.1 hlt).2.2 (lt_irrefl _)
    refine bnd .fft r.data _ (by decide) h3 ?_
    rcases h5 with ⟨_, rfl, _⟩ | ⟨h, _⟩ | ⟨h, _⟩
    · rw [h4]
      simp only [Compressor.decompress, fftToData]
      rw [fft_unwrap _ (fftOk_nil st), ok_bind]
      unfold Fft.toData
      rw [if_pos (by exact hcs)]
      show Except.ok (List.replicate l.length (toSingle st.max)) = _
      rw [e2]
    · rw [hcs] at h; exact absurd h (by decide)
    · rw [hcs] at h; exact absurd h (by decide)
  | polynomial =>
    rw [same _ (by decide), CompArgs.op, hcc]
    exact poly .polynomial
  | idw =>
    rw [same _ (by decide), CompArgs.op, hcc]
    exact poly .idw
  | auto =>
    rw [same _ (by decide), CompArgs.op, hcc]
    obtain ⟨b1, -, -⟩ := best_cases E hE (Frame.new (some .auto)) l hne a.bound a.level ha.2 st hst
    have hfr : (ChunkOp.bounded l .auto a.bound a.level).frame E = _ := b1 (by rw [feq_comm]; exact hc)
    show (ChunkOp.bounded l .auto a.bound a.level).alone E p = _
    rw [alone_eq hfr]
    exact cst

/-- **C128, in memory.** If the samples of every frame (`layout`) are one number, then with every compressor but `noop` (for that see C127), the default included, and every
error and level the samples come back bit for bit - only rounded to single precision with `fft`. -/
theorem C128_bits (E : Ext) (hE : E.Lawful) (p : Profile) (data : List F64) (a : CompArgs) (ha : a.Valid) (hp : FewEnough p data) (hno : a.compressor ≠ .noop)
    (hflat : ∀ l ∈ layout (finiteSamples data), Flat l) :
    ∃ bs, compressData E p data a = .ok bs ∧ (bs.length < 2 ^ 64 → decompressData E bs = .ok ((finiteSamples data).map (backAs a.compressor))) := by
  obtain ⟨bs, h1, h2⟩ := C54_end_to_end E hE p data a ha hp
  refine ⟨bs, h1, fun hl => ?_⟩
  obtain ⟨out, h3, -⟩ := h2 hl
  rw [h3]
  obtain ⟨outs, rfl, hp⟩ := decoded_pieces hE ha h1 hl h3
  congr 1
  have key : ∀ (ls outs : List (List F64)), List.Forall₂ (fun l o => (a.op (a.compressor.toCompressor, l)).alone E p = .ok o ∧ o.length = l.length) ls outs →
      (∀ l ∈ ls, l ∈ layout (finiteSamples data)) → outs.flatten = ls.flatten.map (backAs a.compressor) := by
    intro ls outs h
    induction h with
    | nil => intro _; rfl
    | @cons l o ls outs h _ ih =>
      intro hm
      have hmem := hm l List.mem_cons_self
      have hsz := layout_small hmem
      have := flat_alone E hE p a ha hno l (List.ne_nil_of_length_pos hsz.1) (by omega) (hflat l hmem)
      rw [h.1] at this
      obtain rfl := Except.ok.inj this
      rw [List.flatten_cons, List.flatten_cons, List.map_append, ih fun l' hl' => hm l' (List.mem_cons_of_mem _ hl')]
  rw [key _ _ hp (fun l hl => hl), (layout_lengths _).2]

/-- **C128, the file.** A WBRO file of constant stretches, compressed with any compressor but `noop` and then uncompressed by two command lines: the file written by the
second is byte for byte the first one; with `fft`, exactly if all its samples are single-precision numbers. -/
theorem C128_file (env : Env) (hE : env.E.Lawful) (ha : 8 ∣ env.addr) (stat1 stat2 : List Char → Input) (ts1 ts2 : List Tok) (a1 a2 : AtscArgs)
    (h1 : atscParse ts1 = .ok a1) (h2 : atscParse ts2 = .ok a2) (hu1 : a1.run.uncompress = false) (hu2 : a2.run.uncompress = true)
    (hv1 : a1.run.csv = false) (hno : a1.run.comp.compressor ≠ .noop)
    (path : FPath) (hs1 : stat1 a1.input = .file path) (hs2 : stat2 a2.input = .file (path.withExt "bro"))
    (fs : Fs) (c : Bytes) (hc : fs path = some c) (d : List F64) (hg : WavBrro.toFileWithData d = .ok c) (hd : d.length ≤ 2 ^ 28) (hp : FewEnough env.p d)
    (hne : d ≠ []) (hfin : ∀ x ∈ d, x.isFinite = true) (hflat : ∀ l ∈ layout d, Flat l) :
    ∃ bs, atscMain env stat1 fs ts1 = (fs.write (path.withExt "bro") bs, 0) ∧
      (bs.length < 2 ^ 64 → ∃ f2, (∀ fs2 : Fs, fs2 (path.withExt "bro") = some bs →
          atscMain env stat2 fs2 ts2 = (fs2.write (path.withExt "wbro") f2, 0)) ∧
        (f2 = c ↔ (a1.run.comp.compressor = .fft → ∀ x ∈ d, toSingle x = x))) := by
  have hfs : finiteSamples d = d := List.filter_eq_self.2 hfin
  obtain ⟨x, hx⟩ := List.exists_mem_of_ne_nil d hne
  obtain ⟨bs, r1, r2⟩ := file_restored env hE ha stat1 stat2 ts1 ts2 a1 a2 h1 h2 hu1 hu2 hv1 path hs1 hs2 fs c hc d hg hd hp ⟨x, hx, hfin x hx⟩
    (Q := a1.run.comp.compressor = .fft → ∀ x ∈ d, toSingle x = x) (by
      intro bs out q1 q2 q3
      obtain ⟨bs', w1, w2⟩ := C128_bits env.E hE env.p d a1.run.comp (C104_ranges ts1 a1 h1) hp hno (by rw [hfs]; exact hflat)
      rw [q1] at w1
      obtain rfl := Except.ok.inj w1
      have w3 := w2 q2
      rw [q3] at w3
      obtain rfl := Except.ok.inj w3
      rw [hfs]
      unfold backAs
      by_cases hf : a1.run.comp.compressor = .fft
      · rw [hf]
        simp only [if_true]
        constructor
        · intro h _ x hx
          exact List.map_inj_left.1 (h.trans d.map_id.symm) x hx
        · intro h
          conv_rhs => rw [← d.map_id]
          exact List.map_congr_left fun x hx => h trivial x hx
      · simp only [hf, if_false, List.map_id', false_implies])
  refine ⟨bs, r1, fun hl => ?_⟩
  obtain ⟨f2, k1, k2⟩ := r2 hl
  exact ⟨f2, k1, k2.trans ⟨fun h => h.2, fun h => ⟨hfin, h⟩⟩⟩

/-- The hypotheses of `C128_bits` are met by 512 threes and then a one: two frames. -/
example : ∀ l ∈ layout (finiteSamples (List.replicate 512 (F64.lit 3) ++ [F64.lit 1])), Flat l := by
  have h : layout (finiteSamples (List.replicate 512 (F64.lit 3) ++ [F64.lit 1])) = [List.replicate 512 (F64.lit 3), [F64.lit 1]] := by decide +kernel
  rw [h]
  intro l hl
  rcases List.mem_cons.1 hl with rfl | hl
  · exact ⟨F64.lit 3, fun x hx => List.eq_of_mem_replicate hx, (lit_val (by decide)).1, inRange_of_int (lit_val (by decide)).2 (by decide), by decide +kernel⟩
  · rw [List.mem_singleton.1 hl]
    exact ⟨F64.lit 1, fun x hx => List.mem_singleton.1 hx, (lit_val (by decide)).1, inRange_of_int (lit_val (by decide)).2 (by decide), by decide +kernel⟩

/-- **C128 [with FFT and negative zeros too].** Not so: with `fft` 16777217 comes back as 16777216, and with `auto` a negative zero as zero. -/
theorem C128_refuted : (∃ bs, compressData Ext.dummy .debug [F64.lit 16777217, F64.lit 16777217] ⟨.fft, 0, 0⟩ = .ok bs ∧
      decompressData Ext.dummy bs = .ok [F64.lit 16777216, F64.lit 16777216]) ∧
    ∃ bs, compressData Ext.dummy .debug [FP.negZero, FP.negZero] ⟨.auto, 5, 0⟩ = .ok bs ∧ decompressData Ext.dummy bs = .ok [FP.zero, FP.zero] := by
  have h : okAnd (compressData Ext.dummy .debug [F64.lit 16777217, F64.lit 16777217] ⟨.fft, 0, 0⟩) (fun bs =>
      okAnd (decompressData Ext.dummy bs) fun out => decide (out = [F64.lit 16777216, F64.lit 16777216])) = true := by decide +kernel
  have h' : okAnd (compressData Ext.dummy .debug [FP.negZero, FP.negZero] ⟨.auto, 5, 0⟩) (fun bs =>
      okAnd (decompressData Ext.dummy bs) fun out => decide (out = [FP.zero, FP.zero])) = true := by decide +kernel
  obtain ⟨bs, h1, h2⟩ := okAnd_iff.1 h
  obtain ⟨out, h3, h4⟩ := okAnd_iff.1 h2
  obtain ⟨bs', h1', h2'⟩ := okAnd_iff.1 h'
  obtain ⟨out', h3', h4'⟩ := okAnd_iff.1 h2'
  exact ⟨⟨bs, h1, by rw [h3, of_decide_eq_true h4]⟩, bs', h1', by rw [h3', of_decide_eq_true h4']⟩
end Atsc
