import Verif.Model.Files
import Verif.Props.Cli
import Verif.Props.Wavbrro
/- C55, C61, C62: processing of files and directories. -/
namespace Atsc

/-! ### C61: effects of processing one file -/

/-- The only path a run on `path` may write. -/
def outputPath (a : RunArgs) (path : FPath) : FPath := ⟨path.stem, if a.uncompress then "wbro" else "bro"⟩

/-- **C61.** Processing a file changes at most its own output file, and nothing at all when it returns an error. -/
theorem C61_effects (env : Env) (a : RunArgs) (fs fs' : Fs) (path : FPath) (r : Except FileErr Unit)
    (h : processSingle env a fs path = .ok (fs', r)) :
    (∀ q, q ≠ outputPath a path → fs' q = fs q) ∧ (∀ e, r = .error e → fs' = fs) := by
  have same : ∀ {x : Except FileErr Unit}, (Except.ok (fs, x) : Except Panic _) = .ok (fs', r) →
      (∀ q, q ≠ outputPath a path → fs' q = fs q) ∧ (∀ e, r = .error e → fs' = fs) := by
    intro x hx
    have := (congrArg Prod.fst (Except.ok.inj hx)).symm
    simp only at this
    subst this
    exact ⟨fun _ _ => rfl, fun _ _ => rfl⟩
  have wrote : ∀ {b : Bytes} {p' : FPath}, p' = outputPath a path → (Except.ok (fs.write p' b, .ok ()) : Except Panic (Fs × Except FileErr Unit)) = .ok (fs', r) →
      (∀ q, q ≠ outputPath a path → fs' q = fs q) ∧ (∀ e, r = .error e → fs' = fs) := by
    intro b p' hp hx
    have h1 := (congrArg Prod.fst (Except.ok.inj hx)).symm
    have h2 := (congrArg Prod.snd (Except.ok.inj hx)).symm
    simp only at h1 h2
    subst h1 h2
    refine ⟨fun q hq => ?_, fun e he => by cases he⟩
    unfold Fs.write
    rw [if_neg (by rw [hp]; exact hq)]
  unfold processSingle at h
  by_cases hu : a.uncompress = true
  · have hp : path.withExt "wbro" = outputPath a path := by unfold outputPath FPath.withExt; rw [hu]; rfl
    rw [if_pos hu] at h
    split at h
    · exact same h
    · split at h
      · exact same h
      · exact same h
      · rename_i bs _
        cases h1 : decompressData env.E bs with
        | error e => rw [h1] at h; cases h
        | ok d =>
          rw [h1] at h
          simp only [bind, Except.bind] at h
          cases h2 : WavBrro.toFileWithData d with
          | error e => rw [h2] at h; cases h
          | ok out => rw [h2] at h; exact wrote hp h
  · have hp : path.withExt "bro" = outputPath a path := by unfold outputPath FPath.withExt; rw [if_neg hu]
    rw [if_neg hu] at h
    split at h
    · split at h
      · exact same h
      · rename_i content _
        cases h1 : readCsv env a content with
        | error e => rw [h1] at h; cases h
        | ok r' =>
          rw [h1] at h
          simp only [bind, Except.bind] at h
          cases r' with
          | error e => exact same h
          | ok d =>
            simp only at h
            cases h2 : compressData env.E env.p d a.comp with
            | error e => rw [h2] at h; cases h
            | ok out => rw [h2] at h; exact wrote hp h
    · split at h
      · exact same h
      · rename_i content _
        cases h1 : WavBrro.fromFile env.addr content with
        | error e => rw [h1] at h; cases h
        | ok r' =>
          rw [h1] at h
          simp only [bind, Except.bind] at h
          cases r' with
          | ioError => exact same h
          | formatError => exact same h
          | samples d =>
            simp only at h
            cases h2 : compressData env.E env.p d a.comp with
            | error e => rw [h2] at h; cases h
            | ok out => rw [h2] at h; exact wrote hp h

/-! ### C62: round trip through files -/

theorem Fs.write_same (fs : Fs) (p : FPath) (b : Bytes) : (fs.write p b) p = some b := by unfold Fs.write; rw [if_pos rfl]

/-- **C62.** Compressing a WBRO file and then uncompressing the `.bro` it produced writes a `.wbro` file that reads back as the samples the
in-memory pipeline returns: one per finite sample of the original.  Hypotheses: the original was written by this library with at most 2^28
samples, at least one of them finite, the command line arguments are ones the parser accepts, and the compressed file fits in memory. -/
theorem C62_round_trip (env : Env) (hE : env.E.Lawful) (ha : 8 ∣ env.addr) (args : RunArgs) (hargs : args.comp.Valid) (fs : Fs) (path : FPath)
    (d : List F64) (f : Bytes) (hw : WavBrro.toFileWithData d = .ok f) (hfs : fs path = some f) (hd : d.length ≤ 2 ^ 28) (hp : FewEnough env.p d)
    (x : F64) (hx : x ∈ d) (hfin : x.isFinite = true) :
    ∃ fs1 bs, processSingle env { args with uncompress := false, csv := false } fs path = .ok (fs1, .ok ()) ∧
      compressData env.E env.p d args.comp = .ok bs ∧ fs1 (path.withExt "bro") = some bs ∧
      (bs.length < 2 ^ 64 → ∃ fs2 out f2, processSingle env { args with uncompress := true } fs1 (path.withExt "bro") = .ok (fs2, .ok ()) ∧
        decompressData env.E bs = .ok out ∧ out.length = (finiteSamples d).length ∧
        fs2 (path.withExt "wbro") = some f2 ∧ WavBrro.fromFile env.addr f2 = .ok (.samples out)) := by
  obtain ⟨f', hf1, hf2⟩ := C39_round_trip d hd env.addr ha
  rw [hw] at hf1
  obtain rfl := Except.ok.inj hf1
  obtain ⟨bs, c1, c2, -⟩ := C53_accepted env.E hE env.p d args.comp hargs hp x hx hfin
  obtain ⟨bs', c3, c4⟩ := C54_end_to_end env.E hE env.p d args.comp hargs hp
  rw [c1] at c3
  obtain rfl := Except.ok.inj c3
  refine ⟨fs.write (path.withExt "bro") bs, bs, ?_, c1, Fs.write_same _ _ _, fun hl => ?_⟩
  · unfold processSingle
    rw [if_neg (by simp), if_neg (by simp), hfs]
    simp only [hf2, bind, Except.bind, c1]
  · obtain ⟨out, o1, o2⟩ := c4 hl
    have hle : (finiteSamples d).length ≤ d.length := List.length_filter_le _ _
    obtain ⟨f2, g1, g2⟩ := C39_round_trip out (by omega) env.addr ha
    refine ⟨(fs.write (path.withExt "bro") bs).write (path.withExt "wbro") f2, out, f2, ?_, o1, o2, Fs.write_same _ _ _, g2⟩
    unfold processSingle
    rw [if_pos rfl, Fs.write_same]
    simp only [c2, bind, Except.bind, o1, g1]
    rfl

/-- With the RLE compressor the samples read back have the values of the original's finite samples, for zero or magnitudes in `[2^-64, 2^63)`. -/
theorem C62_rle_values (env : Env) (hE : env.E.Lawful) (ha : 8 ∣ env.addr) (args : RunArgs) (hargs : args.comp.Valid) (hc : args.comp.compressor = .rle)
    (fs : Fs) (path : FPath)
    (d : List F64) (f : Bytes) (hw : WavBrro.toFileWithData d = .ok f) (hfs : fs path = some f) (hd : d.length ≤ 2 ^ 28) (hp : FewEnough env.p d)
    (x : F64) (hx : x ∈ d) (hfin : x.isFinite = true) (hr : ∀ x ∈ d, x.isFinite = true → InRange x) :
    ∃ fs1 bs, processSingle env { args with uncompress := false, csv := false } fs path = .ok (fs1, .ok ()) ∧ fs1 (path.withExt "bro") = some bs ∧
      (bs.length < 2 ^ 64 → ∃ fs2 out f2, processSingle env { args with uncompress := true } fs1 (path.withExt "bro") = .ok (fs2, .ok ()) ∧
        fs2 (path.withExt "wbro") = some f2 ∧ WavBrro.fromFile env.addr f2 = .ok (.samples out) ∧ SameValues out (finiteSamples d)) := by
  obtain ⟨fs1, bs, h1, h2, h3, h4⟩ := C62_round_trip env hE ha args hargs fs path d f hw hfs hd hp x hx hfin
  refine ⟨fs1, bs, h1, h3, fun hl => ?_⟩
  obtain ⟨fs2, out, f2, g1, g2, -, g4, g5⟩ := h4 hl
  obtain ⟨bs', r1, r2⟩ := C54_rle_equal env.E hE env.p d args.comp hargs hp hc hr
  rw [h2] at r1
  obtain rfl := Except.ok.inj r1
  obtain ⟨out', o1, o2⟩ := r2 hl
  rw [g2] at o1
  obtain rfl := Except.ok.inj o1
  exact ⟨fs2, out, f2, g1, g4, g5, o2⟩

/-- What the hypothesis "at least one finite sample" excludes: such a file compresses, but the result cannot be uncompressed (the reader reports it as
truncated) and no `.wbro` file is written. -/
theorem C62_refuted_no_finite (env : Env) (ha : 8 ∣ env.addr) (args : RunArgs) (fs : Fs) (path : FPath) (d : List F64) (f : Bytes)
    (hw : WavBrro.toFileWithData d = .ok f) (hfs : fs path = some f) (hd : d.length ≤ 2 ^ 28) (hnone : ∀ x ∈ d, x.isFinite = false) :
    ∃ fs1, processSingle env { args with uncompress := false, csv := false } fs path = .ok (fs1, .ok ()) ∧
      processSingle env { args with uncompress := true } fs1 (path.withExt "bro") = .ok (fs1, .error .io) ∧
      ∃ bs, fs1 (path.withExt "bro") = some bs := by
  obtain ⟨f', hf1, hf2⟩ := C39_round_trip d hd env.addr ha
  rw [hw] at hf1
  obtain rfl := Except.ok.inj hf1
  obtain ⟨bs, c1, c2, c3⟩ := C53_refuted_empty env.E env.p d args.comp hnone
  refine ⟨fs.write (path.withExt "bro") bs, ?_, ?_, bs, Fs.write_same _ _ _⟩
  · unfold processSingle
    rw [if_neg (by simp), if_neg (by simp), hfs]
    simp only [hf2, bind, Except.bind, c1]
  · unfold processSingle
    rw [if_pos rfl, Fs.write_same]
    simp only [c3]

/-- **C62, exactly.** Compressing a WBRO file always succeeds; uncompressing the result succeeds exactly when the original has a finite sample. -/
theorem C62_exact (env : Env) (hE : env.E.Lawful) (ha : 8 ∣ env.addr) (args : RunArgs) (hargs : args.comp.Valid) (fs : Fs) (path : FPath)
    (d : List F64) (f : Bytes) (hw : WavBrro.toFileWithData d = .ok f) (hfs : fs path = some f) (hd : d.length ≤ 2 ^ 28) (hp : FewEnough env.p d) :
    ∃ fs1 bs, processSingle env { args with uncompress := false, csv := false } fs path = .ok (fs1, .ok ()) ∧ fs1 (path.withExt "bro") = some bs ∧
      (bs.length < 2 ^ 64 → ((∃ fs2, processSingle env { args with uncompress := true } fs1 (path.withExt "bro") = .ok (fs2, .ok ())) ↔
        ∃ x ∈ d, x.isFinite = true)) := by
  by_cases hx : ∃ x ∈ d, x.isFinite = true
  · obtain ⟨x, h1, h2⟩ := hx
    obtain ⟨fs1, bs, g1, -, g3, g4⟩ := C62_round_trip env hE ha args hargs fs path d f hw hfs hd hp x h1 h2
    refine ⟨fs1, bs, g1, g3, fun hl => ⟨fun _ => ⟨x, h1, h2⟩, fun _ => ?_⟩⟩
    obtain ⟨fs2, -, -, h, -⟩ := g4 hl
    exact ⟨fs2, h⟩
  · have hn : ∀ x ∈ d, x.isFinite = false := fun x hm => by
      cases h : x.isFinite with
      | false => rfl
      | true => exact absurd ⟨x, hm, h⟩ hx
    obtain ⟨fs1, g1, g2, bs, hb⟩ := C62_refuted_no_finite env ha args fs path d f hw hfs hd hn
    refine ⟨fs1, bs, g1, hb, fun _ => ⟨fun ⟨fs2, h⟩ => ?_, fun h => absurd h hx⟩⟩
    rw [g2] at h
    cases h

/-- The two runs replace the original when it has the usual extension. -/
theorem C62_replaces_original (path : FPath) (h : path.ext = "wbro") (args : RunArgs) :
    outputPath { args with uncompress := true } (outputPath { args with uncompress := false } path) = path := by
  cases path; simp only at h; subst h; rfl

def demoEnv : Env := { E := Ext.dummy, p := .debug, rows := fun _ => [], parse := fun _ => none, addr := 16 }
def demoArgs : RunArgs := { comp := { compressor := .rle, error := 3, level := 0 }, uncompress := false, csv := false, noHeader := false, fields := [] }
/-- A file system with a single WBRO file holding 5, NaN, 5, -7. -/
def demoFs : Fs := fun q => if q = ⟨"x", "wbro"⟩ then (WavBrro.toFileWithData [F64.lit 5, FP.nan, F64.lit 5, F64.lit (-7)]).toOption else none

/-- The whole round trip executed. -/
example : okAnd (processSingle demoEnv demoArgs demoFs ⟨"x", "wbro"⟩) (fun s1 =>
    okAnd (processSingle demoEnv { demoArgs with uncompress := true } s1.1 ⟨"x", "bro"⟩) (fun s2 =>
      match s2.1 ⟨"x", "wbro"⟩ with
      | some f => okAnd (WavBrro.fromFile 16 f) (fun r => decide (r = .samples [F64.lit 5, F64.lit 5, F64.lit (-7)]))
      | none => false)) = true := by decide +kernel

/-! ### C55: directories -/

/-- The regular files of a listing. -/
def regularFiles (entries : List (FPath × Bool)) : List FPath := (entries.filter (·.2)).map (·.1)

/-- All the files are processed, in order, each until it succeeds (at the first or the second attempt). -/
inductive AllProcessed {σ ε : Type} (proc : σ → FPath → Except Panic (σ × Except ε Unit)) : σ → List FPath → σ → Prop
  | nil (s : σ) : AllProcessed proc s [] s
  | once {s s1 s2 : σ} {p : FPath} {ps : List FPath} : proc s p = .ok (s1, .ok ()) → AllProcessed proc s1 ps s2 → AllProcessed proc s (p :: ps) s2
  | twice {s s0 s1 s2 : σ} {e : ε} {p : FPath} {ps : List FPath} : proc s p = .ok (s0, .error e) → proc s0 p = .ok (s1, .ok ()) →
      AllProcessed proc s1 ps s2 → AllProcessed proc s (p :: ps) s2

/-- **C55 (what an `Ok` means).** A directory run that returns `Ok` has processed every regular file successfully. -/
theorem C55_ok_complete {σ ε : Type} (proc : σ → FPath → Except Panic (σ × Except ε Unit)) : ∀ (entries : List (FPath × Bool)) (s s' : σ),
    processDirectory proc s entries = .ok (s', .ok ()) → AllProcessed proc s (regularFiles entries) s'
  | [], s, s', h => by
    rw [processDirectory] at h
    have := congrArg Prod.fst (Except.ok.inj h)
    simp only at this
    subst this; exact .nil _
  | (path, true) :: rest, s, s', h => by
    rw [processDirectory, if_pos rfl] at h
    have hr : regularFiles ((path, true) :: rest) = path :: regularFiles rest := rfl
    rw [hr]
    cases h1 : proc s path with
    | error e => rw [h1] at h; cases h
    | ok r =>
      obtain ⟨s1, r1⟩ := r
      rw [h1] at h
      simp only [bind, Except.bind] at h
      cases r1 with
      | ok u => exact .once h1 (C55_ok_complete proc rest s1 s' h)
      | error e =>
        simp only at h
        cases h2 : proc s1 path with
        | error e => rw [h2] at h; cases h
        | ok r =>
          obtain ⟨s2, r2⟩ := r
          rw [h2] at h
          simp only at h
          cases r2 with
          | ok u => exact .twice h1 h2 (C55_ok_complete proc rest s2 s' h)
          | error e => have := congrArg Prod.snd (Except.ok.inj h); cases this
  | (path, false) :: rest, s, s', h => by
    rw [processDirectory, if_neg (by simp)] at h
    exact C55_ok_complete proc rest s s' h

/-- **C55.** If no file fails, the run returns `Ok` (and by `C55_ok_complete` has processed all of them).
When one fails: `C55_refuted_abort`, `C55_exact`. -/
theorem C55_no_failure {σ ε : Type} (proc : σ → FPath → Except Panic (σ × Except ε Unit)) : ∀ (entries : List (FPath × Bool)) (s : σ),
    (∀ s p, p ∈ regularFiles entries → ∃ s', proc s p = .ok (s', .ok ())) → ∃ s', processDirectory proc s entries = .ok (s', .ok ())
  | [], s, _ => ⟨s, rfl⟩
  | (path, true) :: rest, s, h => by
    obtain ⟨s1, h1⟩ := h s path (by simp [regularFiles])
    rw [processDirectory, if_pos rfl, h1]
    exact C55_no_failure proc rest s1 (fun s p hp => h s p (by
      have hr : regularFiles ((path, true) :: rest) = path :: regularFiles rest := rfl
      rw [hr]; simp [hp]))
  | (path, false) :: rest, s, h => by
    rw [processDirectory, if_neg (by simp)]
    exact C55_no_failure proc rest s h

theorem processDirectory_append {σ ε : Type} {proc : σ → FPath → Except Panic (σ × Except ε Unit)} {post : List (FPath × Bool)} :
    ∀ {pre : List (FPath × Bool)} {s s1 : σ}, processDirectory proc s pre = .ok (s1, .ok ()) →
      processDirectory proc s (pre ++ post) = processDirectory proc s1 post
  | [], s, s1, h => by
    rw [processDirectory] at h
    have := congrArg Prod.fst (Except.ok.inj h)
    simp only at this
    subst this; rfl
  | (path, true) :: rest, s, s', h => by
    rw [processDirectory, if_pos rfl] at h
    rw [List.cons_append, processDirectory, if_pos rfl]
    cases h1 : proc s path with
    | error e => rw [h1] at h; cases h
    | ok r =>
      obtain ⟨s1, r1⟩ := r
      rw [h1] at h
      simp only [bind, Except.bind] at h ⊢
      cases r1 with
      | ok u => exact processDirectory_append h
      | error e =>
        simp only at h ⊢
        cases h2 : proc s1 path with
        | error e => rw [h2] at h; cases h
        | ok r =>
          obtain ⟨s2, r2⟩ := r
          rw [h2] at h
          simp only at h ⊢
          cases r2 with
          | ok u => exact processDirectory_append h
          | error e => have := congrArg Prod.snd (Except.ok.inj h); cases this
  | (path, false) :: rest, s, s', h => by
    rw [processDirectory, if_neg (by simp)] at h
    rw [List.cons_append, processDirectory, if_neg (by simp)]
    exact processDirectory_append h

/-- **C55 is false.** The first file that fails ends the run with its error: whatever entries follow, none of them is processed. -/
theorem C55_refuted_abort (env : Env) (a : RunArgs) (fs fs1 fs2 : Fs) (pre post : List (FPath × Bool)) (bad : FPath) (e : FileErr)
    (hpre : processDirectory (processSingle env a) fs pre = .ok (fs1, .ok ())) (hbad : processSingle env a fs1 bad = .ok (fs2, .error e)) :
    processDirectory (processSingle env a) fs (pre ++ (bad, true) :: post) = .ok (fs1, .error e) := by
  have hsame := (C61_effects env a fs1 fs2 bad _ hbad).2 e rfl
  subst hsame
  rw [processDirectory_append hpre, processDirectory, if_pos rfl, hbad]
  simp only [bind, Except.bind]
  rw [hbad]

/-- A directory of one ordinary text file and one WBRO file: nothing is compressed if the text file comes first. -/
example : okAnd (processDirectory (processSingle demoEnv demoArgs) (demoFs.write ⟨"notes", "txt"⟩ (List.replicate 20 65))
    [(⟨"notes", "txt"⟩, true), (⟨"x", "wbro"⟩, true)]) (fun r => decide (r.2 = .error .format) && (r.1 ⟨"x", "bro"⟩).isNone) = true := by
  decide +kernel
example : okAnd (processDirectory (processSingle demoEnv demoArgs) demoFs [(⟨"d", ""⟩, false), (⟨"x", "wbro"⟩, true)])
    (fun r => decide (r.2 = .ok ()) && (r.1 ⟨"x", "bro"⟩).isSome) = true := by decide +kernel

end Atsc
