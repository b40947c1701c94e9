import Verif.Props.CommandLine
import Verif.Props.Rerun
import Verif.Props.Files
/- C107: two command lines in a row: compress, then uncompress. -/
namespace Atsc

/-- Specification: the samples `d` are what the command line `a` takes from an input file with content `c`: a WBRO file written from them, or with
`--csv` a text whose chosen column is read as them. -/
inductive Gives (env : Env) (a : RunArgs) (c : Bytes) (d : List F64) : Prop
  | wbro : a.csv = false → WavBrro.toFileWithData d = .ok c → Gives env a c d
  | csv : a.csv = true → readCsv env a c = .ok (.ok d) → Gives env a c d

/-- Compressing such a file writes the compressed samples. -/
theorem Gives.output {env : Env} (ha : 8 ∣ env.addr) {a : RunArgs} (hu : a.uncompress = false) {c : Bytes} {d : List F64} (hd : d.length ≤ 2 ^ 28)
    (h : Gives env a c d) {bs : Bytes} (hb : compressData env.E env.p d a.comp = .ok bs) : Output env a c bs := by
  rcases h with ⟨h1, h2⟩ | ⟨h1, h2⟩
  · obtain ⟨f, g1, g2⟩ := C39_round_trip d hd env.addr ha
    rw [h2] at g1
    obtain rfl := Except.ok.inj g1
    exact .wbro hu h1 g2 hb
  · exact .csv hu h1 h2 hb

/-- **C107.** Two commands in a row: any command line that compresses the file `path`, then any that uncompresses the `.bro` file beside it.  The
options of the two need not match.  Both end with status 0; after the first the `.bro` file is the only one that has changed; after the second
the `.wbro` file is the only further one, and it reads back as the samples of the compressed file, as many as the original had finite ones. -/
theorem C107_session (env : Env) (hE : env.E.Lawful) (ha : 8 ∣ env.addr) (stat1 stat2 : List Char → Input) (ts1 ts2 : List Tok) (a1 a2 : AtscArgs)
    (h1 : atscParse ts1 = .ok a1) (h2 : atscParse ts2 = .ok a2) (hu1 : a1.run.uncompress = false) (hu2 : a2.run.uncompress = true)
    (path : FPath) (hs1 : stat1 a1.input = .file path) (hs2 : stat2 a2.input = .file (path.withExt "bro"))
    (fs : Fs) (c : Bytes) (hc : fs path = some c) (d : List F64) (hg : Gives env a1.run c d) (hd : d.length ≤ 2 ^ 28) (hp : FewEnough env.p d)
    (hx : ∃ x ∈ d, x.isFinite = true) :
    ∃ bs, compressData env.E env.p d a1.run.comp = .ok bs ∧ atscMain env stat1 fs ts1 = (fs.write (path.withExt "bro") bs, 0) ∧
      (bs.length < 2 ^ 64 → ∃ out f2, decompressData env.E bs = .ok out ∧ out.length = (finiteSamples d).length ∧
        atscMain env stat2 (fs.write (path.withExt "bro") bs) ts2 = ((fs.write (path.withExt "bro") bs).write (path.withExt "wbro") f2, 0) ∧
        WavBrro.fromFile env.addr f2 = .ok (.samples out)) := by
  obtain ⟨x, hx1, hx2⟩ := hx
  have hv := C104_ranges ts1 a1 h1
  obtain ⟨bs, c1, c2, -⟩ := C53_accepted env.E hE env.p d a1.run.comp hv hp x hx1 hx2
  obtain ⟨bs', c3, c4⟩ := C54_end_to_end env.E hE env.p d a1.run.comp hv hp
  rw [c1] at c3
  obtain rfl := Except.ok.inj c3
  have o1 : outputPath a1.run path = path.withExt "bro" := by unfold outputPath FPath.withExt; rw [if_neg (by simp [hu1])]
  have o2 : outputPath a2.run (path.withExt "bro") = path.withExt "wbro" := by unfold outputPath FPath.withExt; rw [hu2]; rfl
  refine ⟨bs, c1, ?_, fun hl => ?_⟩
  · rw [(C104_refused env stat1 fs ts1).2.2.2 a1 h1, hs1, C88_exact]
    exact ⟨c, hc, .inl ⟨bs, hg.output ha hu1 hd c1, by rw [o1]⟩⟩
  · obtain ⟨out, e1, e2⟩ := c4 hl
    have hle : (finiteSamples d).length ≤ d.length := List.length_filter_le _ _
    obtain ⟨f2, g1, g2⟩ := C39_round_trip out (by omega) env.addr ha
    refine ⟨out, f2, e1, e2, ?_, g2⟩
    rw [(C104_refused env stat2 _ ts2).2.2.2 a2 h2, hs2, C88_exact]
    have hb : 12 ≤ bs.length ∧ bs.take 4 = [66, 82, 82, 79] := by
      unfold broRead at c2
      by_cases hl : bs.length < 12
      · rw [if_pos hl] at c2; cases c2
      · rw [if_neg hl] at c2
        by_cases h4 : bs.take 4 = brro
        · exact ⟨by omega, h4⟩
        · rw [if_neg h4] at c2; cases c2
    exact ⟨bs, Fs.write_same _ _ _, .inl ⟨f2, .uncompress hu2 hb.1 hb.2 e1 g1, by rw [o2]⟩⟩

/-- With `--compressor rle` the samples that come back have the values of the finite samples that went in (zero or magnitudes in `[2^-64, 2^63)`). -/
theorem C107_rle (env : Env) (hE : env.E.Lawful) (ha : 8 ∣ env.addr) (stat1 stat2 : List Char → Input) (ts1 ts2 : List Tok) (a1 a2 : AtscArgs)
    (h1 : atscParse ts1 = .ok a1) (h2 : atscParse ts2 = .ok a2) (hu1 : a1.run.uncompress = false) (hu2 : a2.run.uncompress = true)
    (hr : a1.run.comp.compressor = .rle)
    (path : FPath) (hs1 : stat1 a1.input = .file path) (hs2 : stat2 a2.input = .file (path.withExt "bro"))
    (fs : Fs) (c : Bytes) (hc : fs path = some c) (d : List F64) (hg : Gives env a1.run c d) (hd : d.length ≤ 2 ^ 28) (hp : FewEnough env.p d)
    (hx : ∃ x ∈ d, x.isFinite = true) (hin : ∀ x ∈ d, x.isFinite = true → InRange x) :
    ∃ bs, atscMain env stat1 fs ts1 = (fs.write (path.withExt "bro") bs, 0) ∧
      (bs.length < 2 ^ 64 → ∃ out f2,
        atscMain env stat2 (fs.write (path.withExt "bro") bs) ts2 = ((fs.write (path.withExt "bro") bs).write (path.withExt "wbro") f2, 0) ∧
        WavBrro.fromFile env.addr f2 = .ok (.samples out) ∧ SameValues out (finiteSamples d)) := by
  obtain ⟨bs, c1, c2, c3⟩ := C107_session env hE ha stat1 stat2 ts1 ts2 a1 a2 h1 h2 hu1 hu2 path hs1 hs2 fs c hc d hg hd hp hx
  refine ⟨bs, c2, fun hl => ?_⟩
  obtain ⟨out, f2, g1, -, g3, g4⟩ := c3 hl
  obtain ⟨bs', r1, r2⟩ := C54_rle_equal env.E hE env.p d a1.run.comp (C104_ranges ts1 a1 h1) hp hr hin
  rw [c1] at r1
  obtain rfl := Except.ok.inj r1
  obtain ⟨out', k1, k2⟩ := r2 hl
  rw [g1] at k1
  obtain rfl := Except.ok.inj k1
  exact ⟨out, f2, g3, g4, k2⟩

/-- Without a finite sample the first command succeeds and the second ends with status 1, having written nothing. -/
theorem C107_refuted_no_finite (env : Env) (ha : 8 ∣ env.addr) (stat1 stat2 : List Char → Input) (ts1 ts2 : List Tok) (a1 a2 : AtscArgs)
    (h1 : atscParse ts1 = .ok a1) (h2 : atscParse ts2 = .ok a2) (hu1 : a1.run.uncompress = false) (hu2 : a2.run.uncompress = true)
    (path : FPath) (hs1 : stat1 a1.input = .file path) (hs2 : stat2 a2.input = .file (path.withExt "bro"))
    (fs : Fs) (c : Bytes) (hc : fs path = some c) (d : List F64) (hg : Gives env a1.run c d) (hd : d.length ≤ 2 ^ 28)
    (hx : ∀ x ∈ d, x.isFinite = false) :
    ∃ bs, atscMain env stat1 fs ts1 = (fs.write (path.withExt "bro") bs, 0) ∧
      atscMain env stat2 (fs.write (path.withExt "bro") bs) ts2 = (fs.write (path.withExt "bro") bs, 1) := by
  obtain ⟨bs, c1, c2, c3⟩ := C53_refuted_empty env.E env.p d a1.run.comp hx
  have o1 : outputPath a1.run path = path.withExt "bro" := by unfold outputPath FPath.withExt; rw [if_neg (by simp [hu1])]
  refine ⟨bs, ?_, ?_⟩
  · rw [(C104_refused env stat1 fs ts1).2.2.2 a1 h1, hs1, C88_exact]
    exact ⟨c, hc, .inl ⟨bs, hg.output ha hu1 hd c1, by rw [o1]⟩⟩
  · rw [(C104_refused env stat2 _ ts2).2.2.2 a2 h2, hs2]
    have hp : processSingle env a2.run (fs.write (path.withExt "bro") bs) (path.withExt "bro") = .ok (fs.write (path.withExt "bro") bs, .error .io) := by
      unfold processSingle
      rw [if_pos hu2, Fs.write_same]
      simp only [c3]
    unfold runMain runArgs runSingle
    simp only [hp]
    rfl

/-- The two shortest command lines, `atsc NAME` and `atsc -u NAME`, are read as the default compression and as uncompression. -/
theorem C107_words (name : List Char) (hne : name ≠ []) (hp : Plain name) :
    (∃ a, atscParse [name] = .ok a ∧ a.input = name ∧ a.run.uncompress = false ∧ a.run.csv = false ∧ a.run.comp = ⟨.auto, 3, 0⟩) ∧
    ∃ a, atscParse [['-', 'u'], name] = .ok a ∧ a.input = name ∧ a.run.uncompress = true := by
  have hw := Line.word (m := atscManual) hp Line.nil
  refine ⟨?_, ?_⟩
  · have ho : atscManual.InOrder [(atscManual.input, name)] := by
      refine ⟨fun x hx => ?_, List.nodup_singleton _⟩
      rw [List.mem_singleton.1 hx]
      refine ⟨Or.inl ⟨rfl, hne⟩, fun st hst => ?_⟩
      rw [stops_iff atsc_described] at hst; cases hst
    refine ⟨⟨name, ⟨⟨.auto, 3, 0⟩, false, false, false, "time,value".toList⟩, false⟩, (C104_exact _ _).2 ⟨_, hw, ho, ?_⟩, rfl, rfl, rfl, rfl⟩
    refine ⟨by simp [atscManual], Or.inr ⟨by simp [atscManual], rfl⟩, Or.inr ⟨by simp [atscManual], rfl⟩, Or.inr ⟨by simp [atscManual], rfl⟩,
      Or.inr ⟨by simp [atscManual], rfl⟩, ?_, ?_, ?_, ?_⟩
    all_goals simp [Flagged, atscManual]
  · have hu : atscManual.Short 'u' atscManual.entries[2] := ⟨List.getElem_mem _, rfl⟩
    have hl := Line.bunch (m := atscManual) (ns := ['u']) (by simp) (Bunch.cons hu rfl Bunch.nil) hw
    have ho : atscManual.InOrder [(.uncompress, []), (.input, name)] := by
      refine ⟨fun x hx => ?_, by simp⟩
      rcases List.mem_cons.1 hx with rfl | hx
      · refine ⟨Or.inr ⟨atscManual.entries[2], List.getElem_mem _, rfl, fun P hP => by cases hP⟩, fun st hst => ?_⟩
        rw [stops_iff atsc_described] at hst; cases hst
      · rw [List.mem_singleton.1 hx]
        refine ⟨Or.inl ⟨rfl, hne⟩, fun st hst => ?_⟩
        rw [stops_iff atsc_described] at hst; cases hst
    refine ⟨⟨name, ⟨⟨.auto, 3, 0⟩, true, false, false, "time,value".toList⟩, false⟩, (C104_exact _ _).2 ⟨_, hl, ho, ?_⟩, rfl, rfl⟩
    refine ⟨by simp [atscManual], Or.inr ⟨by simp [atscManual], rfl⟩, Or.inr ⟨by simp [atscManual], rfl⟩, Or.inr ⟨by simp [atscManual], rfl⟩,
      Or.inr ⟨by simp [atscManual], rfl⟩, ?_, ?_, ?_, ?_⟩
    all_goals simp [Flagged, atscManual]

/-- The session of the README on the demonstration file: `atsc in`, then `atsc -u out`, where `in` names `x.wbro` and `out` names `x.bro`. -/
def sessionStat (w : List Char) : Input := if w = "in".toList then .file ⟨"x", "wbro"⟩ else if w = "out".toList then .file ⟨"x", "bro"⟩ else .missing

example : ∃ bs, atscMain demoEnv sessionStat demoFs ["in".toList] = (demoFs.write ⟨"x", "bro"⟩ bs, 0) ∧
    (bs.length < 2 ^ 64 → ∃ out f2, out.length = 3 ∧
      atscMain demoEnv sessionStat (demoFs.write ⟨"x", "bro"⟩ bs) [['-', 'u'], "out".toList] = ((demoFs.write ⟨"x", "bro"⟩ bs).write ⟨"x", "wbro"⟩ f2, 0) ∧
      WavBrro.fromFile 16 f2 = .ok (.samples out)) := by
  obtain ⟨a1, p1, i1, u1, v1, -⟩ := (C107_words "in".toList (by simp) (Or.inr (by decide +kernel))).1
  obtain ⟨a2, p2, i2, u2⟩ := (C107_words "out".toList (by simp) (Or.inr (by decide +kernel))).2
  obtain ⟨f, w1, -⟩ := C39_round_trip [F64.lit 5, FP.nan, F64.lit 5, F64.lit (-7)] (by simp) 16 (by decide)
  obtain ⟨bs, -, c2, c3⟩ := C107_session demoEnv Ext.dummy_lawful (by decide) sessionStat sessionStat _ _ a1 a2 p1 p2 u1 u2 ⟨"x", "wbro"⟩
    (by rw [i1]; rfl) (by rw [i2]; unfold sessionStat; rw [if_neg (by decide +kernel), if_pos rfl]; rfl) demoFs f
    (by unfold demoFs; rw [if_pos rfl, w1]; rfl) _ (.wbro v1 w1) (by simp) (fun _ => by decide) ⟨F64.lit 5, by simp, by decide +kernel⟩
  refine ⟨bs, c2, fun hl => ?_⟩
  obtain ⟨out, f2, -, g2, g3, g4⟩ := c3 hl
  exact ⟨out, f2, by rw [g2]; decide +kernel, g3, g4⟩

end Atsc
