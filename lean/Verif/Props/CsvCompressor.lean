import Verif.Model.CsvCompressor
import Verif.Props.Metric
import Verif.Props.VsriCut
/- C72: what csv-compressor does to files, C63 at the level of files. -/
namespace Atsc

/-- The files a run may write: compressing writes `base.bro` unless `--no-compression`, `base.vsri` only with `--output-vsri` and `base.wavbro` only
with `--output-wavbrro`; uncompressing writes `base.wbro` and `base.csv`; `base` is `--output`, or the input. -/
def CsvArgs.MayWrite (a : CsvArgs) (input q : FPath) : Prop :=
  let base := a.output.getD input
  if a.uncompress then q = ⟨base.stem, "wbro"⟩ ∨ q = ⟨base.stem, "csv"⟩
  else (q = ⟨base.stem, "bro"⟩ ∧ a.noCompression = false) ∨ (q = ⟨base.stem, "vsri"⟩ ∧ a.outputVsri = true) ∨ (q = ⟨base.stem, "wavbro"⟩ ∧ a.outputWavbrro = true)

theorem Fs.write_other {fs : Fs} {p q : FPath} {b : Bytes} (h : q ≠ p) : fs.write p b q = fs q := by unfold Fs.write; rw [if_neg h]

theorem flushWav_other {a : CsvArgs} {base : FPath} {m : Metric} {fs : Fs} {q : FPath} (h : q = ⟨base.stem, "wavbro"⟩ → a.outputWavbrro = true → False) :
    (csvFlushWavbrro a base m fs).1 q = fs q := by
  unfold csvFlushWavbrro
  split_ifs with h1
  · cases m.wbro.toFile with
    | error e => rfl
    | ok f => exact Fs.write_other fun hq => h hq h1
  · rfl

theorem flushVsri_other {a : CsvArgs} {base : FPath} {m : Metric} {fs : Fs} {q : FPath} (h : q = ⟨base.stem, "vsri"⟩ → a.outputVsri = true → False) :
    csvFlushVsri a base m fs q = fs q := by
  unfold csvFlushVsri
  split_ifs with h1
  · exact Fs.write_other fun hq => h hq h1
  · rfl

theorem flushBro_other {env : CsvEnv} {a : CsvArgs} {base : FPath} {m : Metric} {fs : Fs} {q : FPath} (h : q = ⟨base.stem, "bro"⟩ → a.noCompression = false → False) :
    (csvFlushBro env a base m fs).1 q = fs q := by
  unfold csvFlushBro
  split_ifs with h1
  · rfl
  · cases compressData env.E env.p m.wbro.getSamples a.comp with
    | error e => rfl
    | ok f => exact Fs.write_other fun hq => h hq (by simpa using h1)

/-- C72: a run, also one that panics, changes no file but its own outputs. -/
theorem C72_effects (env : CsvEnv) (a : CsvArgs) (fs : Fs) (input q : FPath) (h : ¬ a.MayWrite input q) : (csvRun env a fs input).1 q = fs q := by
  unfold CsvArgs.MayWrite at h
  unfold csvRun
  split_ifs with hu
  · rw [if_pos hu, not_or] at h
    unfold csvRunUncompress
    split
    · rfl
    · split
      · rfl
      · rfl
      · split
        · rfl
        · split
          · rfl
          · split
            · rfl
            · split
              · rfl
              · split
                · rfl
                · dsimp only
                  split
                  · exact Fs.write_other h.1
                  · dsimp only
                    rw [Fs.write_other (show q ≠ (a.base input).withExt "csv" from h.2)]
                    exact Fs.write_other h.1
  · rw [if_neg hu, not_or, not_or] at h
    unfold csvRunCompress
    split
    · rfl
    · split
      · rfl
      · split
        · rfl
        · rfl
        · rename_i m _
          have e1 := flushWav_other (a := a) (base := a.base input) (m := m) (fs := fs) (q := q) fun h1 h2 => h.2.2 ⟨h1, h2⟩
          split
          · rename_i fs1 e he
            rw [he] at e1
            exact e1
          · rename_i fs1 he
            rw [he] at e1
            rw [flushBro_other (base := a.base input) fun h1 h2 => h.1 ⟨h1, h2⟩, flushVsri_other (base := a.base input) fun h1 h2 => h.2.1 ⟨h1, h2⟩]
            exact e1

/-- C72: a CSV file that cannot be read, or that holds a sample the index refuses, leaves no trace. -/
theorem C72_refused_untouched (env : CsvEnv) (a : CsvArgs) (fs : Fs) (input : FPath) (content : Bytes) (hu : a.uncompress = false) (hf : fs input = some content)
    (h : env.readCsv content = none ∨ ∃ ss, env.readCsv content = some ss ∧ ∀ m, Metric.fromSamples env.p env.valid ss ≠ .ok (.ok m)) :
    ∃ e, csvRun env a fs input = (fs, .error e) := by
  unfold csvRun csvRunCompress
  rw [if_neg (by simp [hu]), hf]
  dsimp only
  rcases h with h | ⟨ss, h, hm⟩
  · rw [h]; exact ⟨_, rfl⟩
  · rw [h]
    dsimp only
    cases hs : Metric.fromSamples env.p env.valid ss with
    | error e => exact ⟨e, rfl⟩
    | ok r =>
      cases r with
      | error s => exact ⟨_, rfl⟩
      | ok m => exact absurd hs (hm m)

theorem digit_small {c : Char} (h : c.isDigit = true) : c.toNat < 256 := by
  unfold Char.isDigit at h
  rw [Bool.and_eq_true, decide_eq_true_eq, decide_eq_true_eq] at h
  have h2 := h.2
  rw [UInt32.le_iff_toNat_le] at h2
  have e : ('9' : Char).val.toNat = 57 := by decide
  rw [e] at h2
  unfold Char.toNat
  omega

theorem flush_small (v : Vsri) : ∀ c ∈ v.flush, c.toNat < 256 := by
  have hn : ∀ c, NumChar c → c.toNat < 256 := by
    rintro c (rfl | h)
    · decide
    · exact digit_small h
  have hnl : ('\n' : Char).toNat < 256 := by decide
  have hcm : (',' : Char).toNat < 256 := by decide
  intro c hc
  unfold Vsri.flush at hc
  simp only [List.mem_append, List.mem_cons, List.mem_flatMap] at hc
  rcases hc with h | rfl | h | rfl | ⟨s, -, h | h | h⟩
  · exact hn c (show_num _ c h)
  · exact hnl
  · exact hn c (show_num _ c h)
  · exact hnl
  · rcases segLine_chars s c h with h | rfl
    · exact hn c h
    · exact hcm
  · rw [h]; exact hnl
  · cases h

/-- What the compress run leaves on disk, when the in-memory pipeline succeeds. -/
theorem run_compress {env : CsvEnv} {a : CsvArgs} {fs : Fs} {input : FPath} {content : Bytes} {ss : List MSample} {bro : Bytes} {vsri : List Char}
    (hu : a.uncompress = false) (hn : a.noCompression = false) (hv : a.outputVsri = true) (hf : fs input = some content) (hr : env.readCsv content = some ss)
    (hlen : ss.length ≤ 2 ^ 28) (h : csvCompress env.E env.p env.valid a.comp ss = .ok (bro, vsri)) :
    ∃ fs1, csvRun env a fs input = (fs1, .ok ()) ∧ fs1 ((a.base input).withExt "bro") = some bro ∧
      fs1 ((a.base input).withExt "vsri") = some (textBytes vsri) ∧ compressData env.E env.p (ss.map (·.value)) a.comp = .ok bro := by
  unfold csvCompress at h
  obtain ⟨r, h1, h⟩ := bind_ok_iff.1 h
  cases r with
  | error s => cases h
  | ok m =>
    dsimp only at h
    obtain ⟨bs, h2, h3⟩ := bind_ok_iff.1 h
    have h4 := Prod.mk.inj (Except.ok.inj h3)
    obtain ⟨rfl, rfl⟩ := h4
    have h1' := h1
    unfold Metric.fromSamples at h1
    obtain ⟨⟨m', e⟩, h5, h6⟩ := bind_ok_iff.1 h1
    cases e with
    | some s => cases h6
    | none =>
      obtain rfl := Except.ok.inj (Except.ok.inj h6)
      obtain ⟨pre, post, e1, e2, -, e4, -⟩ := append_split h5
      rw [e4 rfl, List.append_nil] at e1
      subst e1
      have e2' : WavBrro.addAll env.p .new (ss.map (·.value)) = .ok m'.wbro := e2
      obtain ⟨f, g1, -⟩ := C39_round_trip_added env.p (ss.map (·.value)) (by rw [List.length_map]; exact hlen) m'.wbro e2' 0 (by decide)
      have g2 := (C37_add_get env.p _ _ e2').1
      have hw : ∃ fs1, csvFlushWavbrro a (a.base input) m' fs = (fs1, .ok ()) := by
        unfold csvFlushWavbrro
        split_ifs
        · rw [g1]; exact ⟨_, rfl⟩
        · exact ⟨_, rfl⟩
      obtain ⟨fs1, hw⟩ := hw
      refine ⟨(fs1.write ((a.base input).withExt "vsri") (textBytes m'.vsri.flush)).write ((a.base input).withExt "bro") bs, ?_, ?_, ?_, ?_⟩
      · unfold csvRun csvRunCompress
        rw [if_neg (by simp [hu]), hf]
        dsimp only
        rw [hr]
        dsimp only
        rw [h1']
        dsimp only
        rw [hw]
        dsimp only
        unfold csvFlushBro csvFlushVsri
        rw [if_neg (by simp [hn]), if_pos hv, h2]
      · unfold Fs.write; rw [if_pos rfl]
      · rw [Fs.write_other (by simp [FPath.withExt])]
        unfold Fs.write; rw [if_pos rfl]
      · rw [← g2]; exact h2

/-- What the uncompress run does, when the in-memory pipeline succeeds. -/
theorem run_uncompress {env : CsvEnv} {a : CsvArgs} {fs : Fs} {input : FPath} {bro : Bytes} {v : Vsri} {d : List F64} {out : List MSample}
    (hu : a.uncompress = true) (hf : fs input = some bro) (hb : broRead bro = .bytes bro)
    (hv : fs (input.withExt "vsri") = some (textBytes v.flush)) (hd : decompressData env.E bro = .ok d) (hlen : d.length ≤ 2 ^ 28)
    (h : csvUncompress env.E env.p bro v.flush = .ok out) :
    ∃ fs2 f, csvRun env a fs input = (fs2, .ok ()) ∧ fs2 ((a.base input).withExt "csv") = some (env.writeCsv out) ∧
      fs2 ((a.base input).withExt "wbro") = some f ∧ WavBrro.toFileWithData d = .ok f := by
  unfold csvUncompress at h
  rw [hd, ok_bind] at h
  obtain ⟨w, h1, h⟩ := bind_ok_iff.1 h
  obtain ⟨v', h2, h3⟩ := bind_ok_iff.1 h
  obtain ⟨f, g1, -⟩ := C39_round_trip d hlen 0 (by decide)
  refine ⟨(fs.write ((a.base input).withExt "wbro") f).write ((a.base input).withExt "csv") (env.writeCsv out), f, ?_, ?_, ?_, g1⟩
  · unfold csvRun csvRunUncompress
    rw [if_pos hu, hf]
    dsimp only
    rw [hb]
    dsimp only
    rw [hd]
    dsimp only
    rw [h1]
    dsimp only
    rw [hv]
    dsimp only
    rw [loadOrPanic_text, h2]
    dsimp only
    rw [g1]
    dsimp only
    rw [h3]
  · unfold Fs.write; rw [if_pos rfl]
  · rw [Fs.write_other (by simp [FPath.withExt])]
    unfold Fs.write; rw [if_pos rfl]

/-- C72 and C63 for files: samples regularly spaced within one day, with finite values, are compressed with `--output-vsri` and the `.bro` file is uncompressed. Both runs
succeed, and the CSV file written holds, in order, the seconds of the day of the original samples with the values the codec returns; the `.wbro` file holds the same values.
For any samples of a day: `C72_round_trip_exact`. -/
theorem C72_round_trip_regular (env : CsvEnv) (hE : env.E.Lawful) (a b : CsvArgs) (ha : a.comp.Valid) (fs : Fs) (input : FPath) (content : Bytes) (ss : List MSample)
    (hu : a.uncompress = false) (hnc : a.noCompression = false) (hov : a.outputVsri = true) (hub : b.uncompress = true)
    (hf : fs input = some content) (hr : env.readCsv content = some ss)
    (t0 step : Int) (h0 : 0 ≤ t0) (hm : 0 < step) (hn : 2 ≤ ss.length) (hlast : t0 + step * ((ss.length : Int) - 1) < 86400)
    (htimes : ss.map (fun s => daySecond s.timestamp) = regular t0 step ss.length)
    (hvalid : ∀ s ∈ ss, env.valid (s.timestamp.tdiv 1000) = true) (hfin : ∀ s ∈ ss, s.value.isFinite = true) :
    ∃ fs1 bro, csvRun env a fs input = (fs1, .ok ()) ∧ fs1 ((a.base input).withExt "bro") = some bro ∧
      (bro.length < 2 ^ 64 → ∃ fs2 out, csvRun env b fs1 ((a.base input).withExt "bro") = (fs2, .ok ()) ∧
        fs2 ((b.base ((a.base input).withExt "bro")).withExt "csv") = some (env.writeCsv out) ∧
        out.map (·.timestamp) = ss.map (fun s => daySecond s.timestamp) ∧
        compressData env.E env.p (ss.map (·.value)) a.comp = .ok bro ∧ decompressData env.E bro = .ok (out.map (·.value))) := by
  have hge : 1 * ((ss.length : Int) - 1) ≤ step * ((ss.length : Int) - 1) := Int.mul_le_mul_of_nonneg_right (by omega) (by omega)
  have hlen : ss.length ≤ 86400 := by omega
  obtain ⟨bro, vsri, c1, c2⟩ := C63_regular env.E hE env.p env.valid a.comp ha ss t0 step h0 hm hn hlast htimes hvalid hfin
  obtain ⟨fs1, r1, r2, r3, r4⟩ := run_compress hu hnc hov hf hr (by omega) c1
  refine ⟨fs1, bro, r1, r2, fun hl => ?_⟩
  obtain ⟨out, o1, o2, o3⟩ := c2 hl
  obtain ⟨s, hs⟩ := List.exists_mem_of_length_pos (l := ss) (by omega)
  obtain ⟨bs, q1, q2, -⟩ := C53_accepted env.E hE env.p (ss.map (·.value)) a.comp ha (by intro _; rw [List.length_map]; omega) s.value
    (List.mem_map.2 ⟨s, hs, rfl⟩) (hfin s hs)
  rw [r4] at q1
  obtain rfl := Except.ok.inj q1
  have hvs : ∃ v : Vsri, vsri = v.flush := by
    unfold csvCompress at c1
    obtain ⟨r, h1, h⟩ := bind_ok_iff.1 c1
    cases r with
    | error s => cases h
    | ok m =>
      obtain ⟨bs, h2, h3⟩ := bind_ok_iff.1 h
      exact ⟨m.vsri, (Prod.mk.inj (Except.ok.inj h3)).2.symm⟩
  obtain ⟨v, rfl⟩ := hvs
  have hol : out.length = ss.length := by
    have := congrArg List.length o2
    simpa using this
  obtain ⟨fs2, f, g1, g2, -⟩ := run_uncompress (a := b) hub r2 q2 r3 o3 (by rw [List.length_map]; omega) o1
  exact ⟨fs2, out, g1, g2, o2, r4, o3⟩

/-- C72 refuted: without `--output-vsri` nothing is left to uncompress with: if there is no `.vsri` beside the `.bro` file, uncompressing panics (and changes nothing). -/
theorem C72_refuted_no_index (env : CsvEnv) (b : CsvArgs) (fs : Fs) (input : FPath) (hub : b.uncompress = true) (hv : fs (input.withExt "vsri") = none)
    (bro : Bytes) (d : List F64) (hf : fs input = some bro) (hb : broRead bro = .bytes bro) (hd : decompressData env.E bro = .ok d) :
    ∃ e, csvRun env b fs input = (fs, .error e) := by
  unfold csvRun csvRunUncompress
  rw [if_pos hub, hf]
  dsimp only
  rw [hb]
  dsimp only
  rw [hd]
  dsimp only
  cases WavBrro.addAll env.p .new d with
  | error e => exact ⟨e, rfl⟩
  | ok w => dsimp only; rw [hv]; exact ⟨_, rfl⟩

theorem regular_strict {t0 step : Int} {n : Nat} (h0 : 0 ≤ t0) (hm : 0 < step) (hlast : t0 + step * ((n : Int) - 1) < 86400) (hn : n ≤ 86400) :
    StrictHistory (regular t0 step n) := by
  refine ⟨?_, ?_, by rw [regular_length]; omega⟩
  · rw [List.pairwise_iff_getElem]
    intro i j hi hj hij
    rw [regular_get, regular_get]
    have : step * (i : Int) + step * 1 ≤ step * (j : Int) := by
      rw [← Int.mul_add]; exact Int.mul_le_mul_of_nonneg_left (by omega) hm.le
    omega
  · intro y hy
    obtain ⟨i, hi, rfl⟩ := List.getElem_of_mem hy
    rw [regular_length] at hi
    rw [regular_get]
    have g1 : 0 ≤ step * (i : Int) := Int.mul_nonneg hm.le (Int.natCast_nonneg _)
    have g2 : step * (i : Int) ≤ step * ((n : Int) - 1) := Int.mul_le_mul_of_nonneg_left (by omega) hm.le
    omega

theorem seconds_ne {E : Ext} (hE : E.Lawful) {p : Profile} {valid : Int → Bool} {a : CompArgs} (ha : a.Valid) {ss : List MSample}
    {t0 step : Int} (h0 : 0 ≤ t0) (hm : 0 < step) (hn : 2 ≤ ss.length) (hlast : t0 + step * ((ss.length : Int) - 1) < 86400)
    (htimes : ss.map (fun s => daySecond s.timestamp) = regular t0 step ss.length)
    (hvalid : ∀ s ∈ ss, valid (s.timestamp.tdiv 1000) = true) (hfin : ∀ s ∈ ss, s.value.isFinite = true) {bro : Bytes}
    (hc : ∃ v, csvCompress E p valid a ss = .ok (bro, v)) (hl : bro.length < 2 ^ 64) : ss.map (fun s => daySecond s.timestamp) ≠ ss.map (·.timestamp) := by
  obtain ⟨b1, v1, c1, c2⟩ := C63_regular E hE p valid a ha ss t0 step h0 hm hn hlast htimes hvalid hfin
  obtain ⟨b2, v2, d1, d2⟩ := C63_refuted_day_lost E hE p valid a ha ss t0 step h0 hm hn hlast htimes hvalid hfin
  obtain ⟨v, hv⟩ := hc
  rw [hv] at c1 d1
  obtain ⟨rfl, rfl⟩ := Prod.mk.inj (Except.ok.inj c1)
  obtain ⟨rfl, rfl⟩ := Prod.mk.inj (Except.ok.inj d1)
  obtain ⟨o1, x1, x2, -⟩ := c2 hl
  obtain ⟨o2, y1, y2⟩ := d2 hl
  rw [x1] at y1
  obtain rfl := Except.ok.inj y1
  rw [← x2]; exact y2

/-- C72 refuted: the original is not kept. With the default output names, compressing `x.csv` and uncompressing `x.bro` replaces `x.csv` by a file with other timestamps, even in the
good case of `C72_round_trip_regular`. -/
theorem C72_refuted_overwrites (env : CsvEnv) (hE : env.E.Lawful) (a b : CsvArgs) (ha : a.comp.Valid) (fs : Fs) (stem : String) (content : Bytes) (ss : List MSample)
    (hu : a.uncompress = false) (hnc : a.noCompression = false) (hov : a.outputVsri = true) (hub : b.uncompress = true) (hao : a.output = none) (hbo : b.output = none)
    (hf : fs ⟨stem, "csv"⟩ = some content) (hr : env.readCsv content = some ss)
    (t0 step : Int) (h0 : 0 ≤ t0) (hm : 0 < step) (hn : 2 ≤ ss.length) (hlast : t0 + step * ((ss.length : Int) - 1) < 86400)
    (htimes : ss.map (fun s => daySecond s.timestamp) = regular t0 step ss.length)
    (hvalid : ∀ s ∈ ss, env.valid (s.timestamp.tdiv 1000) = true) (hfin : ∀ s ∈ ss, s.value.isFinite = true) :
    ∃ fs1 bro, csvRun env a fs ⟨stem, "csv"⟩ = (fs1, .ok ()) ∧ fs1 ⟨stem, "bro"⟩ = some bro ∧
      (bro.length < 2 ^ 64 → ∃ fs2 out, csvRun env b fs1 ⟨stem, "bro"⟩ = (fs2, .ok ()) ∧
        fs2 ⟨stem, "csv"⟩ = some (env.writeCsv out) ∧ out.map (·.timestamp) ≠ ss.map (·.timestamp)) := by
  have hge : 1 * ((ss.length : Int) - 1) ≤ step * ((ss.length : Int) - 1) := Int.mul_le_mul_of_nonneg_right (by omega) (by omega)
  obtain ⟨bro', vsri, c1, -⟩ := C63_regular env.E hE env.p env.valid a.comp ha ss t0 step h0 hm hn hlast htimes hvalid hfin
  obtain ⟨fs1', r1, r2, -, -⟩ := run_compress hu hnc hov hf hr (by omega) c1
  obtain ⟨fs1, bro, g1, g2, g3⟩ := C72_round_trip_regular env hE a b ha fs ⟨stem, "csv"⟩ content ss hu hnc hov hub hf hr t0 step h0 hm hn hlast htimes hvalid hfin
  have eb : a.base ⟨stem, "csv"⟩ = ⟨stem, "csv"⟩ := by unfold CsvArgs.base; rw [hao]; rfl
  rw [eb] at g2 g3 r2
  have ebb : b.base ((⟨stem, "csv"⟩ : FPath).withExt "bro") = ⟨stem, "bro"⟩ := by unfold CsvArgs.base; rw [hbo]; rfl
  rw [ebb] at g3
  refine ⟨fs1, bro, g1, g2, fun hl => ?_⟩
  obtain ⟨fs2, out, k1, k2, k3, -, -⟩ := g3 hl
  refine ⟨fs2, out, k1, k2, ?_⟩
  rw [k3]
  have e1 : fs1' = fs1 := by rw [r1] at g1; exact (Prod.mk.inj g1).1
  rw [e1, g2] at r2
  obtain rfl := Option.some.inj r2
  exact seconds_ne hE ha h0 hm hn hlast htimes hvalid hfin ⟨_, c1⟩ hl

/-- C72 refuted: the index is not tied to the data. Whatever `.vsri` file lies beside the `.bro` file is used, for instance one of another series of `n` regularly spaced
points: the run succeeds and the samples get that series' timestamps. -/
theorem C72_refuted_stale (env : CsvEnv) (b : CsvArgs) (hub : b.uncompress = true) (fs : Fs) (input : FPath) (bro : Bytes) (d : List F64)
    (hf : fs input = some bro) (hb : broRead bro = .bytes bro) (hd : decompressData env.E bro = .ok d)
    (t0 step : Int) (n : Nat) (h0 : 0 ≤ t0) (hm : 0 < step) (hn : 2 ≤ n) (hdn : d.length ≤ n) (hlast : t0 + step * ((n : Int) - 1) < 86400)
    (v : Vsri) (rs : List Bool) (hrun : Vsri.run env.p .new (regular t0 step n) = .ok (v, rs)) (hv : fs (input.withExt "vsri") = some (textBytes v.flush)) :
    ∃ fs2 out, csvRun env b fs input = (fs2, .ok ()) ∧ fs2 ((b.base input).withExt "csv") = some (env.writeCsv out) ∧
      out.map (·.value) = d ∧ out.map (·.timestamp) = regular t0 step d.length := by
  have hge : 1 * ((n : Int) - 1) ≤ step * ((n : Int) - 1) := Int.mul_le_mul_of_nonneg_right (by omega) (by omega)
  have hlen : n ≤ 86400 := by omega
  obtain ⟨v', hrun', -, -, hget⟩ := C46_regular env.p t0 step n h0 hm hn (by omega) (by omega)
  rw [hrun] at hrun'
  obtain ⟨rfl, rfl⟩ := Prod.mk.inj (Except.ok.inj hrun')
  have hst := regular_strict h0 hm hlast hlen
  have hload := C49_reachable env.p _ hst v _ hrun
  have hadd := C38_bulk env.p d (.inr (by omega))
  have hso : (WavBrro.fromSlice d).getSamples = d := WavBrro.chunksOf_flatten (by decide) _
  obtain ⟨r, r1, r2, r3⟩ := stamp_ok (p := env.p) (v := v) (g := fun i => t0 + step * (i : Int)) (k := n) (xs := d) (i := 0) (by omega) (by omega)
    (fun j hj => (hget j hj).2)
  have hun : csvUncompress env.E env.p bro v.flush = .ok r := by
    unfold csvUncompress
    simp only [bind, Except.bind, hd, hadd, hload]
    unfold Metric.getSamples
    simp only [hso]
    exact r1
  obtain ⟨fs2, f, g1, g2, -⟩ := run_uncompress (a := b) hub hf hb hv hd (by omega) hun
  refine ⟨fs2, r, g1, g2, r2, ?_⟩
  rw [r3]
  unfold regular
  rw [List.range_eq_range']

theorem stamp_all {p : Profile} {v : Vsri} : ∀ {xs : List F64} {i : Nat} {r : List MSample}, Metric.stamp p v i xs = .ok r →
    ∀ j, j < xs.length → ∃ t, v.getTime p (wrap32 ((i + j : Nat) : Int)) = .ok (some t) := by
  intro xs
  induction xs with
  | nil => intro i r _ j hj; simp at hj
  | cons x xs ih =>
    intro i r h j hj
    rw [Metric.stamp] at h
    obtain ⟨o, h1, h⟩ := bind_ok_iff.1 h
    cases o with
    | none => cases h
    | some t =>
      obtain ⟨r', h2, -⟩ := bind_ok_iff.1 h
      cases j with
      | zero => exact ⟨t, h1⟩
      | succ j =>
        have := ih h2 j (by simpa using hj)
        rw [show i + (j + 1) = i + 1 + j by omega]
        exact this

/-- C72 refuted: uncompressing is not all or nothing. If the index has (at least two) fewer samples than the data, the `.wbro` file is written and then the run panics, without a CSV file. -/
theorem C72_refuted_partial_output (env : CsvEnv) (b : CsvArgs) (hub : b.uncompress = true) (fs : Fs) (input : FPath) (bro : Bytes) (d : List F64)
    (hf : fs input = some bro) (hb : broRead bro = .bytes bro) (hd : decompressData env.E bro = .ok d) (hlen : d.length ≤ 2 ^ 28)
    (h : List Int) (H : StrictHistory h) (v : Vsri) (rs : List Bool) (hrun : Vsri.run env.p .new h = .ok (v, rs)) (hv : fs (input.withExt "vsri") = some (textBytes v.flush))
    (hmore : h.length + 2 ≤ d.length) :
    ∃ fs2 f e, csvRun env b fs input = (fs2, .error e) ∧ fs2 ((b.base input).withExt "wbro") = some f ∧ WavBrro.toFileWithData d = .ok f ∧
      fs2 ((b.base input).withExt "csv") = fs ((b.base input).withExt "csv") := by
  obtain ⟨f, g1, -⟩ := C39_round_trip d hlen 0 (by decide)
  have hload := C49_reachable env.p _ H v _ hrun
  have hadd := C38_bulk env.p d (.inr (by omega))
  have hso : (WavBrro.fromSlice d).getSamples = d := WavBrro.chunksOf_flatten (by decide) _
  have hcount := (Inv_count (p := env.p) (run_inv H hrun).1)
  obtain ⟨e, he⟩ : ∃ e, Metric.getSamples env.p ⟨WavBrro.fromSlice d, v⟩ = .error e := by
    cases hg : Metric.getSamples env.p ⟨WavBrro.fromSlice d, v⟩ with
    | error e => exact ⟨e, rfl⟩
    | ok r =>
      exfalso
      unfold Metric.getSamples at hg
      dsimp only at hg
      rw [hso] at hg
      obtain ⟨t, ht⟩ := stamp_all hg (h.length + 1) (by omega)
      have hw : wrap32 ((0 + (h.length + 1) : Nat) : Int) = (h.length : Int) + 1 := by unfold wrap32; omega
      rw [hw] at ht
      unfold Vsri.getTime at ht
      rw [if_neg (by omega), hcount, ok_bind, if_pos (by omega)] at ht
      cases ht
  refine ⟨fs.write ((b.base input).withExt "wbro") f, f, e, ?_, ?_, g1, Fs.write_other (by simp [FPath.withExt])⟩
  · unfold csvRun csvRunUncompress
    rw [if_pos hub, hf]
    dsimp only
    rw [hb]
    dsimp only
    rw [hd]
    dsimp only
    rw [hadd]
    dsimp only
    rw [hv]
    dsimp only
    rw [loadOrPanic_text, hload]
    dsimp only
    rw [g1]
    dsimp only
    rw [he]
  · unfold Fs.write; rw [if_pos rfl]

/-! ### The hypotheses are met -/

/-- Three samples of 10, 20 and 30 seconds past midnight of the second day. -/
def demoSamples : List MSample := [⟨86410500, F64.lit 5⟩, ⟨86420000, F64.lit 6⟩, ⟨86430000, F64.lit 7⟩]

/-- An environment in which every CSV file holds `demoSamples`. -/
def demoCsvEnv : CsvEnv := { E := Ext.dummy, p := .debug, valid := fun _ => true, readCsv := fun _ => some demoSamples, writeCsv := fun ss => ss.map fun s => UInt8.ofNat s.timestamp.toNat }

def demoCsvArgs (u : Bool) : CsvArgs := { comp := { compressor := .noop, error := 5, level := 0 }, output := none, uncompress := u, noCompression := false, outputVsri := true, outputWavbrro := true }

/-- `x.csv` only. -/
def csvDemoFs : Fs := fun q => if q = ⟨"x", "csv"⟩ then some [] else none

example : ∃ fs1 bro, csvRun demoCsvEnv (demoCsvArgs false) csvDemoFs ⟨"x", "csv"⟩ = (fs1, .ok ()) ∧ fs1 ⟨"x", "bro"⟩ = some bro ∧
      (bro.length < 2 ^ 64 → ∃ fs2 out, csvRun demoCsvEnv (demoCsvArgs true) fs1 ⟨"x", "bro"⟩ = (fs2, .ok ()) ∧
        fs2 ⟨"x", "csv"⟩ = some (demoCsvEnv.writeCsv out) ∧ out.map (·.timestamp) ≠ demoSamples.map (·.timestamp)) :=
  C72_refuted_overwrites demoCsvEnv Ext.dummy_lawful (demoCsvArgs false) (demoCsvArgs true) ⟨by decide, by decide⟩ csvDemoFs "x" [] demoSamples rfl rfl rfl rfl rfl rfl rfl rfl
    10 10 (by decide) (by decide) (by decide) (by decide) (by decide +kernel) (fun _ _ => rfl) (by decide +kernel)

/-- The same run, computed: the CSV holds the seconds 10, 20, 30, and the three files of the first run are there. -/
example : (match csvRun demoCsvEnv (demoCsvArgs false) csvDemoFs ⟨"x", "csv"⟩ with
    | (fs1, .ok ()) => (fs1 ⟨"x", "wavbro"⟩).isSome && decide (fs1 ⟨"x", "vsri"⟩ = some (textBytes "10\n30\n10,0,10,3\n".toList)) &&
      (match csvRun demoCsvEnv (demoCsvArgs true) fs1 ⟨"x", "bro"⟩ with
      | (fs2, .ok ()) => decide (fs2 ⟨"x", "csv"⟩ = some [10, 20, 30])
      | _ => false)
    | _ => false) = true := by decide +kernel

end Atsc
