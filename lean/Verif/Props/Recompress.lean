import Verif.Props.Files
/- C75: compressing again what was decompressed. -/
namespace Atsc
open FP

/-! ### Noop -/

/-- The sample Noop returns for `x`. -/
def noopBack (x : F64) : F64 := FP.ofInt (F64.toI64 x.round)

theorem noop_int_cases (x : F64) : F64.toI64 x.round = 2 ^ 63 - 1 ∨ F64.toI64 x.round = -2 ^ 63 ∨
    ∃ n : ℤ, F64.toI64 x.round = n ∧ -2 ^ 63 ≤ n ∧ n < 2 ^ 63 ∧ (noopBack x).isFinite = true ∧ (noopBack x).val = n := by
  by_cases hf : x.isFinite = true
  · have h := noop_sample_finite x hf
    obtain ⟨h1, h2⟩ := FP.round_val (by decide) (by decide) x hf
    have hs := (val_eq_int (by decide)).1 h2
    set n := roundHalfAway x.val with hn
    have ht := truncInt_of_scaled hs
    have hnan := isFinite_not_nan h1
    by_cases hhi : 2 ^ 63 ≤ n
    · left
      unfold F64.toI64 FP.toInt; rw [hnan, ht]; simp only [Bool.false_eq_true, if_false]; omega
    · by_cases hlo : n < -2 ^ 63
      · right; left
        unfold F64.toI64 FP.toInt; rw [hnan, ht]; simp only [Bool.false_eq_true, if_false]; omega
      · right; right
        have e : F64.toI64 x.round = n := toInt_of_scaled hnan hs (by omega) (by omega)
        refine ⟨n, e, by omega, by omega, h.1, ?_⟩
        have h2 := h.2
        unfold noopValue at h2
        rw [← hn, show max (-2 ^ 63) (min (2 ^ 63) n) = n by omega] at h2
        exact h2
  · have hrd : x.round = x := by unfold FP.round; simp [hf]
    unfold noopBack
    rw [hrd]
    by_cases hn : x.isNaN = true
    · have e : F64.toI64 x = 0 := by unfold F64.toI64 FP.toInt; simp [hn]
      right; right
      rw [e]
      refine ⟨0, rfl, by omega, by omega, by decide +kernel, ?_⟩
      exact (val_eq_int (n := 0) (by decide)).2 (by decide +kernel)
    · have hinf : x.isInf = true := by
        rw [Bool.not_eq_true] at hf hn
        by_contra h; rw [Bool.not_eq_true] at h
        rw [isFinite_iff.2 ⟨hn, h⟩] at hf; cases hf
      obtain ⟨s, m⟩ := x
      have hm : m = ⟨infMag 52 11, infMag_lt 52 11⟩ := by
        unfold FP.isInf at hinf; simp at hinf; exact Fin.ext hinf
      subst hm
      cases s
      · left; decide +kernel
      · right; left; decide +kernel

theorem noopBack_stable (x : F64) : F64.toI64 (noopBack x).round = F64.toI64 x.round := by
  rcases noop_int_cases x with h | h | ⟨n, h, h1, h2, h3, h4⟩
  · unfold noopBack; rw [h]; decide +kernel
  · unfold noopBack; rw [h]; decide +kernel
  · rw [h]
    obtain ⟨q1, q2⟩ := FP.round_val (by decide) (by decide) (noopBack x) h3
    rw [h4, roundHalfAway_int] at q2
    exact toInt_of_scaled (isFinite_not_nan q1) ((val_eq_int (by decide)).1 q2) (by omega) (by omega)

theorem noopBack_finite (x : F64) : (noopBack x).isFinite = true := by
  rcases noop_int_cases x with h | h | ⟨n, h, h1, h2, h3, h4⟩
  · unfold noopBack; rw [h]; decide +kernel
  · unfold noopBack; rw [h]; decide +kernel
  · exact h3

theorem noop_map (data : List F64) : noop (data.map noopBack) = noop data := by
  have h : Noop.optimize (data.map noopBack) = Noop.optimize data := by
    unfold Noop.optimize
    rw [List.map_map]
    refine List.map_congr_left fun x _ => ?_
    rw [Function.comp_apply]
    exact noopBack_stable x
  unfold noop
  rw [h]

/-- C75 for one chunk: Noop gives the same bytes for a chunk and for what those bytes decompress to, whatever the samples are. -/
theorem C75_noop_chunk (E : Ext) (data : List F64) (hne : data ≠ []) (hlen : data.length < 2 ^ 64) :
    ∃ bs out, Compressor.noop.compress E data = .ok bs ∧ Compressor.noop.decompress E data.length bs = .ok out ∧
      Compressor.noop.compress E out = .ok bs := by
  obtain ⟨st, hst⟩ := stats_ok hne
  obtain ⟨st', hst'⟩ := stats_ok (data := data.map noopBack) (by simpa using hne)
  refine ⟨noop data, data.map noopBack, ?_, noopToData_noop data data.length hlen, ?_⟩
  · simp only [Compressor.compress, hst, ok_bind]
  · simp only [Compressor.compress, hst', ok_bind, noop_map]

/-! ### The whole file -/

theorem runOps_congr {E : Ext} {p : Profile} : ∀ (l l' : List ChunkOp) (s : Stream),
    List.Forall₂ (fun a b => a.frame E = b.frame E) l l' → s.runOps E p l = s.runOps E p l' := by
  intro l l' s h
  induction h generalizing s with
  | nil => rfl
  | cons h _ ih =>
    simp only [Stream.runOps, apply_eq, h]
    cases hf : (ChunkOp.frame E _ >>= fun f => s.push p f) with
    | error e => rfl
    | ok s' => exact ih s'

/-- Lists of lists with the same lengths and the same concatenation are equal. -/
theorem eq_of_flatten {α : Type} : ∀ (l l' : List (List α)), l.map List.length = l'.map List.length → l.flatten = l'.flatten → l = l' := by
  intro l
  induction l with
  | nil => intro l' h _; cases l' with
    | nil => rfl
    | cons _ _ => simp at h
  | cons a l ih =>
    intro l' h h2
    cases l' with
    | nil => simp at h
    | cons b l' =>
      simp only [List.map_cons, List.cons.injEq, List.flatten_cons] at h h2
      obtain ⟨e1, e2⟩ := List.append_inj h2 h.1
      rw [e1, ih l' h.2 e2]

theorem plan_sizes {data : List F64} {pl : Plan} (h1 : Plan.plan data = .ok pl) : pl.chunkSizes = chunkSizes (cleanData data).length := by
  unfold Plan.plan at h1
  obtain ⟨cs, _, h1⟩ := bind_ok_iff.1 h1
  rw [← Except.ok.inj h1]

theorem cleanData_eq (data : List F64) : cleanData data = finiteSamples data := by
  unfold cleanData finiteSamples
  refine List.filter_congr fun x _ => ?_
  cases h : x.isFinite with
  | true => rw [isFinite_not_nan h, isFinite_not_inf h]; rfl
  | false =>
    cases h1 : x.isNaN <;> cases h2 : x.isInf <;> try rfl
    rw [isFinite_iff.2 ⟨h1, h2⟩] at h; cases h

/-- The file depends on the samples only through what the frames of the chunks are. -/
theorem compressData_map {E : Ext} {p : Profile} {a : CompArgs} (g : F64 → F64) (hg : ∀ x, (g x).isFinite = true)
    (hf : ∀ chunk : List F64, chunk ≠ [] → (a.op (a.compressor.toCompressor, chunk.map g)).frame E = (a.op (a.compressor.toCompressor, chunk)).frame E)
    (data : List F64) : compressData E p ((finiteSamples data).map g) a = compressData E p data a := by
  obtain ⟨pl, ex, h1, h2, h3, h4, _, _, h7, h8⟩ := C35_partition data a.compressor.toCompressor
  obtain ⟨pl', ex', h1', h2', h3', h4', _, _, h7', h8'⟩ := C35_partition ((finiteSamples data).map g) a.compressor.toCompressor
  have hfin : finiteSamples ((finiteSamples data).map g) = (finiteSamples data).map g := by
    unfold finiteSamples
    rw [List.filter_eq_self]
    intro y hy
    obtain ⟨x, _, rfl⟩ := List.mem_map.1 hy
    exact hg x
  have e1 := plan_sizes h1
  have e2 := plan_sizes h1'
  rw [cleanData_eq] at e1
  rw [cleanData_eq, hfin, List.length_map, ← e1, h8, h8'] at e2
  have hex : ex'.map Prod.snd = (ex.map Prod.snd).map (List.map g) := by
    refine eq_of_flatten _ _ ?_ ?_
    · simp only [List.map_map, Function.comp_def, List.length_map]
      exact e2
    · rw [h3', ← List.map_flatten, h3]
      exact hfin
  unfold compressData
  rw [h1, h1', ok_bind, ok_bind, h2, h2', ok_bind, ok_bind, compressLoop_eq, compressLoop_eq]
  congr 1
  refine runOps_congr _ _ _ ?_
  rw [List.forall₂_iff_get]
  have hl : ex'.length = ex.length := by simpa using congrArg List.length hex
  refine ⟨by simpa using hl, fun i i1 i2 => ?_⟩
  simp only [List.get_eq_getElem, List.getElem_map]
  simp only [List.length_map] at i1 i2
  have hi := congrArg (fun l => l[i]?) hex
  simp only [List.getElem?_map, List.getElem?_eq_getElem i1, List.getElem?_eq_getElem i2, Option.map_some, Option.some.injEq] at hi
  have c1 := (h4 _ (List.getElem_mem i2))
  have c2 := (h4' _ (List.getElem_mem i1))
  have p1 : ex'[i] = (a.compressor.toCompressor, (ex[i].2).map g) := Prod.ext c2.1 hi
  have p2 : ex[i] = (a.compressor.toCompressor, ex[i].2) := Prod.ext c1.1 rfl
  rw [p1]
  conv_rhs => rw [p2]
  exact hf _ (List.ne_nil_of_length_pos c1.2.1)

/-- C75 for the whole input: with Noop, compressing what a compressed file decompresses to gives that file again, byte for byte. -/
theorem C75_noop_file (E : Ext) (hE : E.Lawful) (p : Profile) (data : List F64) (a : CompArgs) (ha : a.Valid) (hp : FewEnough p data)
    (hc : a.compressor = .noop) :
    ∃ bs, compressData E p data a = .ok bs ∧
      (bs.length < 2 ^ 64 → ∃ out, decompressData E bs = .ok out ∧ compressData E p out a = .ok bs) := by
  obtain ⟨ex, s, h1, h2, h3, h4, h5⟩ := pipeline E hE p data a ha hp
  refine ⟨_, h2, fun hl => ?_⟩
  obtain ⟨out, o1, o2⟩ := concat_forall2 (E := E) (p := p) (a := a) (fun (o x : F64) => o = noopBack x) ex (fun x hx => by
    obtain ⟨q1, q2, q3, q4⟩ := h4 x hx
    obtain ⟨st, hst⟩ := stats_ok (List.ne_nil_of_length_pos q2)
    have hop : a.op x = .using x.2 .noop := by unfold CompArgs.op; rw [q1, hc]; rfl
    refine ⟨x.2.map noopBack, ?_, ?_⟩
    · have hf : (a.op x).frame E = .ok { Frame.new (some .noop) with sampleCount := x.2.length, data := noop x.2 } := by
        rw [hop]
        show (Compressor.noop.compress E x.2 >>= _) = _
        simp only [Compressor.compress, hst, ok_bind]
      rw [alone_eq hf]
      exact noopToData_noop x.2 x.2.length (by omega)
    · exact List.forall₂_iff_get.2 ⟨by simp, fun i i1 i2 => by simp⟩)
  have he : out = (finiteSamples data).map noopBack := by
    rw [← h3]
    refine List.ext_getElem? fun i => ?_
    obtain ⟨ol, og⟩ := List.forall₂_iff_get.1 o2
    by_cases hi : i < out.length
    · rw [List.getElem?_eq_getElem hi, List.getElem?_eq_getElem (by rw [List.length_map]; omega), List.getElem_map]
      exact congrArg some (og i hi (by omega))
    · rw [List.getElem?_eq_none (by omega), List.getElem?_eq_none (by rw [List.length_map]; omega)]
  refine ⟨out, ?_, ?_⟩
  · rw [decompressData_ok h1 (fun x hx => (h4 x hx).2.2.1) hl]; exact o1
  · rw [he, compressData_map noopBack noopBack_finite, h2]
    intro chunk hne
    unfold CompArgs.op
    rw [hc]
    obtain ⟨st, hst⟩ := stats_ok hne
    obtain ⟨st', hst'⟩ := stats_ok (data := chunk.map noopBack) (by simpa using hne)
    show (Compressor.noop.compress E (chunk.map noopBack) >>= _) = (Compressor.noop.compress E chunk >>= _)
    simp only [Compressor.compress, hst, hst', ok_bind, noop_map, List.length_map]

/-- C75 on the file system: compress a WBRO file with Noop, uncompress the result, compress the uncompressed file again: the `.bro` file of the
third run is the `.bro` file of the first, byte for byte. -/
theorem C75_noop_runs (env : Env) (hE : env.E.Lawful) (ha : 8 ∣ env.addr) (args : RunArgs) (hargs : args.comp.Valid) (hc : args.comp.compressor = .noop)
    (fs : Fs) (path : FPath)
    (d : List F64) (f : Bytes) (hw : WavBrro.toFileWithData d = .ok f) (hfs : fs path = some f) (hd : d.length ≤ 2 ^ 28) (hp : FewEnough env.p d)
    (x : F64) (hx : x ∈ d) (hfin : x.isFinite = true) :
    ∃ fs1 bs, processSingle env { args with uncompress := false, csv := false } fs path = .ok (fs1, .ok ()) ∧ fs1 (path.withExt "bro") = some bs ∧
      (bs.length < 2 ^ 64 → ∃ fs2 fs3, processSingle env { args with uncompress := true } fs1 (path.withExt "bro") = .ok (fs2, .ok ()) ∧
        processSingle env { args with uncompress := false, csv := false } fs2 (path.withExt "wbro") = .ok (fs3, .ok ()) ∧
        fs3 (path.withExt "bro") = some bs) := by
  obtain ⟨fs1, bs, h1, h2, h3, h4⟩ := C62_round_trip env hE ha args hargs fs path d f hw hfs hd hp x hx hfin
  refine ⟨fs1, bs, h1, h3, fun hl => ?_⟩
  obtain ⟨fs2, out, f2, g1, g2, -, g4, g5⟩ := h4 hl
  obtain ⟨bs', r1, r2⟩ := C75_noop_file env.E hE env.p d args.comp hargs hp hc
  rw [h2] at r1
  obtain rfl := Except.ok.inj r1
  obtain ⟨out', o1, o2⟩ := r2 hl
  rw [g2] at o1
  obtain rfl := Except.ok.inj o1
  refine ⟨fs2, fs2.write (path.withExt "bro") bs, g1, ?_, Fs.write_same _ _ _⟩
  unfold processSingle
  rw [if_neg (by simp), if_neg (by simp), g4]
  simp only [g5, bind, Except.bind, o2]
  rfl

/-- C75 for RLE: a second pass loses nothing more: the samples it returns have the values the first pass returned. -/
theorem C75_rle_values (E : Ext) (hE : E.Lawful) (p : Profile) (data : List F64) (a : CompArgs) (ha : a.Valid) (hp : FewEnough p data)
    (hc : a.compressor = .rle) (hr : ∀ x ∈ data, x.isFinite = true → InRange x) :
    ∃ bs, compressData E p data a = .ok bs ∧ (bs.length < 2 ^ 64 → ∃ out bs2, decompressData E bs = .ok out ∧ compressData E p out a = .ok bs2 ∧
      (bs2.length < 2 ^ 64 → ∃ out2, decompressData E bs2 = .ok out2 ∧ SameValues out2 out)) := by
  obtain ⟨bs, h1, h2⟩ := C54_rle_equal E hE p data a ha hp hc hr
  refine ⟨bs, h1, fun hl => ?_⟩
  obtain ⟨out, o1, o2⟩ := h2 hl
  have hle : (finiteSamples data).length ≤ data.length := List.length_filter_le _ _
  have hfo : finiteSamples out = out := by
    unfold finiteSamples
    rw [List.filter_eq_self]
    intro y hy
    obtain ⟨i, hi, rfl⟩ := List.getElem_of_mem hy
    exact (o2.2 i hi (by rw [← o2.1]; exact hi)).2.1
  obtain ⟨bs2, q1, q2⟩ := C54_rle_equal E hE p out a ha (fun hd => by have := hp hd; have := o2.1; omega) hc (by
    intro y hy _
    obtain ⟨i, hi, rfl⟩ := List.getElem_of_mem hy
    have hi2 : i < (finiteSamples data).length := by rw [← o2.1]; exact hi
    have hm := List.mem_filter.1 (List.getElem_mem hi2)
    have := hr _ hm.1 hm.2
    unfold InRange at this ⊢
    rw [(o2.2 i hi hi2).1]; exact this)
  rw [hfo] at q2
  exact ⟨out, bs2, o1, q1, q2⟩

def rleArgs : CompArgs := { compressor := .rle, error := 3, level := 0 }

/-- With RLE the second file need not be the first: `-0.0` comes back as `0.0`, which sorts differently among the stored values. -/
theorem C75_refuted_rle_bytes : ∃ bs out bs2, compressData Ext.dummy .debug [(F64.lit 0).neg, F64.lit 1] rleArgs = .ok bs ∧
    decompressData Ext.dummy bs = .ok out ∧ compressData Ext.dummy .debug out rleArgs = .ok bs2 ∧ bs ≠ bs2 := by
  have h : okAnd (compressData Ext.dummy .debug [(F64.lit 0).neg, F64.lit 1] rleArgs) (fun bs => okAnd (decompressData Ext.dummy bs) fun out =>
    okAnd (compressData Ext.dummy .debug out rleArgs) fun bs2 => decide (bs ≠ bs2)) = true := by decide +kernel
  obtain ⟨bs, h1, h⟩ := okAnd_iff.1 h
  obtain ⟨out, h2, h⟩ := okAnd_iff.1 h
  obtain ⟨bs2, h3, h⟩ := okAnd_iff.1 h
  exact ⟨bs, out, bs2, h1, h2, h3, of_decide_eq_true h⟩

def noopArgs : CompArgs := { compressor := .noop, error := 3, level := 0 }

/-- The Noop run executed: NaN is dropped, 2.5 becomes 3, 1e300 the 64-bit limit; the second file is the first. -/
example : okAnd (compressData Ext.dummy .debug [FP.nan, (F64.lit 5).div (F64.lit 2), F64.lit (10 ^ 300)] noopArgs) (fun bs =>
    okAnd (decompressData Ext.dummy bs) fun out => decide (out = [F64.lit 3, F64.lit (2 ^ 63)]) &&
      okAnd (compressData Ext.dummy .debug out noopArgs) fun bs2 => decide (bs = bs2)) = true := by decide +kernel
example : noopArgs.Valid ∧ rleArgs.Valid := ⟨⟨by decide, by decide⟩, ⟨by decide, by decide⟩⟩

end Atsc
