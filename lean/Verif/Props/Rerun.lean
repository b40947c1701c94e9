import Verif.Model.Main
import Verif.Props.Crash
/- C86-C88: running the program again, and what its exit status says. -/
namespace Atsc

/-! ### What one file gives -/

/-- Specification: `b` is the output the program should produce from a file with content `c`. -/
inductive Output (env : Env) (a : RunArgs) (c : Bytes) : Bytes → Prop
  /-- uncompressing a BRRO file -/
  | uncompress {d : List F64} {b : Bytes} : a.uncompress = true → 12 ≤ c.length → c.take 4 = [66, 82, 82, 79] → decompressData env.E c = .ok d →
      WavBrro.toFileWithData d = .ok b → Output env a c b
  /-- compressing a CSV file -/
  | csv {d : List F64} {b : Bytes} : a.uncompress = false → a.csv = true → readCsv env a c = .ok (.ok d) →
      compressData env.E env.p d a.comp = .ok b → Output env a c b
  /-- compressing a WBRO file -/
  | wbro {d : List F64} {b : Bytes} : a.uncompress = false → a.csv = false → WavBrro.fromFile env.addr c = .ok (.samples d) →
      compressData env.E env.p d a.comp = .ok b → Output env a c b

/-- Specification: the file is one `-u` passes over in silence. -/
def Skipped (a : RunArgs) (c : Bytes) : Prop := a.uncompress = true ∧ 12 ≤ c.length ∧ c.take 4 ≠ [66, 82, 82, 79]

/-- A successful run on one file, both ways. -/
theorem processSingle_ok_iff {env : Env} {a : RunArgs} {fs fs' : Fs} {path : FPath} :
    processSingle env a fs path = .ok (fs', .ok ()) ↔
      ∃ c, fs path = some c ∧ ((∃ b, Output env a c b ∧ fs' = fs.write (outputPath a path) b) ∨ (Skipped a c ∧ fs' = fs)) := by
  constructor
  · intro h
    unfold processSingle at h
    by_cases hu : a.uncompress = true
    · have hp : path.withExt "wbro" = outputPath a path := by unfold outputPath FPath.withExt; rw [hu]; rfl
      rw [if_pos hu] at h
      cases hc : fs path with
      | none => rw [hc] at h; exact absurd (congrArg Prod.snd (Except.ok.inj h)) (by simp)
      | some c =>
        rw [hc] at h
        refine ⟨c, rfl, ?_⟩
        simp only [broRead] at h
        by_cases hl : c.length < 12
        · rw [if_pos hl] at h; exact absurd (congrArg Prod.snd (Except.ok.inj h)) (by simp)
        · rw [if_neg hl] at h
          by_cases h4 : c.take 4 = brro
          · rw [if_pos h4] at h
            dsimp only at h
            cases h1 : decompressData env.E c with
            | error e => rw [h1] at h; cases h
            | ok d =>
              rw [h1] at h
              simp only [bind, Except.bind] at h
              cases h2 : WavBrro.toFileWithData d with
              | error e => rw [h2] at h; cases h
              | ok out =>
                rw [h2] at h
                refine .inl ⟨out, .uncompress hu (by omega) h4 h1 h2, ?_⟩
                rw [← hp]; exact (congrArg Prod.fst (Except.ok.inj h)).symm
          · rw [if_neg h4] at h
            exact .inr ⟨⟨hu, by omega, h4⟩, (congrArg Prod.fst (Except.ok.inj h)).symm⟩
    · have hp : path.withExt "bro" = outputPath a path := by unfold outputPath FPath.withExt; rw [if_neg hu]
      have huf : a.uncompress = false := by simpa using hu
      rw [if_neg hu] at h
      by_cases hcsv : a.csv = true
      · rw [if_pos hcsv] at h
        cases hc : fs path with
        | none => rw [hc] at h; exact absurd (congrArg Prod.snd (Except.ok.inj h)) (by simp)
        | some c =>
          rw [hc] at h
          dsimp only at h
          refine ⟨c, rfl, .inl ?_⟩
          cases h1 : readCsv env a c with
          | error e => rw [h1] at h; cases h
          | ok r =>
            rw [h1] at h
            simp only [bind, Except.bind] at h
            cases r with
            | error e => exact absurd (congrArg Prod.snd (Except.ok.inj h)) (by simp)
            | ok d =>
              dsimp only at h
              cases h2 : compressData env.E env.p d a.comp with
              | error e => rw [h2] at h; cases h
              | ok out =>
                rw [h2] at h
                refine ⟨out, .csv huf hcsv h1 h2, ?_⟩
                rw [← hp]; exact (congrArg Prod.fst (Except.ok.inj h)).symm
      · rw [if_neg hcsv] at h
        cases hc : fs path with
        | none => rw [hc] at h; exact absurd (congrArg Prod.snd (Except.ok.inj h)) (by simp)
        | some c =>
          rw [hc] at h
          dsimp only at h
          refine ⟨c, rfl, .inl ?_⟩
          cases h1 : WavBrro.fromFile env.addr c with
          | error e => rw [h1] at h; cases h
          | ok r =>
            rw [h1] at h
            simp only [bind, Except.bind] at h
            cases r with
            | ioError => exact absurd (congrArg Prod.snd (Except.ok.inj h)) (by simp)
            | formatError => exact absurd (congrArg Prod.snd (Except.ok.inj h)) (by simp)
            | samples d =>
              dsimp only at h
              cases h2 : compressData env.E env.p d a.comp with
              | error e => rw [h2] at h; cases h
              | ok out =>
                rw [h2] at h
                refine ⟨out, .wbro huf (by simpa using hcsv) h1 h2, ?_⟩
                rw [← hp]; exact (congrArg Prod.fst (Except.ok.inj h)).symm
  · rintro ⟨c, hc, ⟨b, ho, rfl⟩ | ⟨⟨hu, hl, h4⟩, rfl⟩⟩
    · unfold processSingle
      cases ho with
      | uncompress hu hl h4 h1 h2 =>
        have hb : broRead c = .bytes c := by unfold broRead; rw [if_neg (by omega)]; exact if_pos h4
        rw [if_pos hu, hc]
        simp only [hb, h1, h2, bind, Except.bind]
        rw [show path.withExt "wbro" = outputPath a path by unfold outputPath FPath.withExt; rw [hu]; rfl]
      | csv hu hcsv h1 h2 =>
        rw [if_neg (by simp [hu]), if_pos hcsv, hc]
        simp only [h1, h2, bind, Except.bind]
        rw [show path.withExt "bro" = outputPath a path by unfold outputPath FPath.withExt; rw [if_neg (by simp [hu])]]
      | wbro hu hcsv h1 h2 =>
        rw [if_neg (by simp [hu]), if_neg (by simp [hcsv]), hc]
        simp only [h1, h2, bind, Except.bind]
        rw [show path.withExt "bro" = outputPath a path by unfold outputPath FPath.withExt; rw [if_neg (by simp [hu])]]
    · unfold processSingle
      have hb : broRead c = .notBro := by unfold broRead; rw [if_neg (by omega)]; exact if_neg h4
      rw [if_pos hu, hc]
      simp only [hb]

/-! ### C86: an interrupted run -/

/-- What a crash can leave behind of a run on `path`: no file but the output is touched, and the output only by a run that writes it at all; then it
may be missing, empty, a part of the new content, or anything else. -/
def CutOff (env : Env) (a : RunArgs) (path : FPath) (fs c : Fs) : Prop :=
  (∀ q, q ≠ outputPath a path → c q = fs q) ∧ (c (outputPath a path) ≠ fs (outputPath a path) → ∃ c0 b, fs path = some c0 ∧ Output env a c0 b)

/-- A file is not both passed over and turned into an output. -/
theorem Skipped.no_output {env : Env} {a : RunArgs} {c b : Bytes} (h : Skipped a c) (ho : Output env a c b) : False := by
  cases ho with
  | uncompress _ _ h4 _ _ => exact h.2.2 h4
  | csv hu _ _ _ => rw [h.1] at hu; cases hu
  | wbro hu _ _ _ => rw [h.1] at hu; cases hu

/-- **C86.** A run on one file that was cut short at any point can simply be run again: it ends as the uninterrupted one would have, in the same
file system.  The part that holds: the input is not its own output (`C86_refuted_self`) and the run is on a file, not on a directory
(`C86_refuted_directory`). -/
theorem C86_rerun (env : Env) (a : RunArgs) (fs fs' c : Fs) (path : FPath) (h : processSingle env a fs path = .ok (fs', .ok ()))
    (hne : path ≠ outputPath a path) (hc : CutOff env a path fs c) : processSingle env a c path = .ok (fs', .ok ()) := by
  obtain ⟨c0, h0, h1⟩ := processSingle_ok_iff.1 h
  obtain ⟨k1, k2⟩ := hc
  refine processSingle_ok_iff.2 ⟨c0, by rw [k1 path hne]; exact h0, ?_⟩
  rcases h1 with ⟨b, ho, rfl⟩ | ⟨hs, rfl⟩
  · refine .inl ⟨b, ho, ?_⟩
    funext q
    unfold Fs.write
    by_cases hq : q = outputPath a path
    · rw [if_pos hq, if_pos hq]
    · rw [if_neg hq, if_neg hq, k1 q hq]
  · refine .inr ⟨hs, ?_⟩
    funext q
    by_cases hq : q = outputPath a path
    · subst hq
      by_contra hn
      obtain ⟨c1, b, e1, e2⟩ := k2 (fun e => hn e.symm)
      rw [h0] at e1
      obtain rfl := Option.some.inj e1
      exact hs.no_output e2
    · exact (k1 q hq).symm

/-- C86 on the demonstration file: the crash left 5 bytes of the output. -/
example : CutOff demoEnv demoArgs ⟨"x", "wbro"⟩ demoFs (demoFs.write ⟨"x", "bro"⟩ [66, 82, 82, 79, 1]) := by
  refine ⟨fun q hq => ?_, fun _ => ?_⟩
  · unfold Fs.write; exact if_neg hq
  · obtain ⟨bs, hbs⟩ : ∃ bs, compressData demoEnv.E demoEnv.p [F64.lit 5, FP.nan, F64.lit 5, F64.lit (-7)] demoArgs.comp = .ok bs := by
      have : (compressData demoEnv.E demoEnv.p [F64.lit 5, FP.nan, F64.lit 5, F64.lit (-7)] demoArgs.comp).isOk = true := by decide +kernel
      cases h : compressData demoEnv.E demoEnv.p [F64.lit 5, FP.nan, F64.lit 5, F64.lit (-7)] demoArgs.comp with
      | ok bs => exact ⟨bs, rfl⟩
      | error e => rw [h] at this; cases this
    obtain ⟨f, h1, h2⟩ := C39_round_trip [F64.lit 5, FP.nan, F64.lit 5, F64.lit (-7)] (by simp) 16 (by decide)
    refine ⟨f, bs, ?_, .wbro rfl rfl h2 hbs⟩
    unfold demoFs
    rw [if_pos rfl, h1]
    rfl

/-- A file named `x.bro` with WBRO content. -/
def selfFs : Fs := fun q => if q = ⟨"x", "bro"⟩ then (WavBrro.toFileWithData [F64.lit 5]).toOption else none

/-- **C86 is false when the input has the extension of the output.** Compressing `x.bro` (a WBRO file by content) overwrites it; cut off after the
file was opened for writing, nothing is left to run again. -/
theorem C86_refuted_self : ∃ (env : Env) (a : RunArgs) (fs c : Fs) (path : FPath),
    okAnd (processSingle env a fs path) (fun r => decide (r.2 = .ok ())) = true ∧ (∀ q, q ≠ outputPath a path → c q = fs q) ∧
      c (outputPath a path) = some [] ∧ okAnd (processSingle env a c path) (fun r => decide (r.2 = .error .io)) = true :=
  ⟨demoEnv, demoArgs, selfFs, selfFs.write ⟨"x", "bro"⟩ [], ⟨"x", "bro"⟩, by decide +kernel, fun q hq => if_neg hq, by decide +kernel, by decide +kernel⟩

/-- The `.bro` file of the demonstration, whole, and the `.wbro` file its uncompression was about to write, just created. -/
def cutDirFs : Fs := fun q => if q = ⟨"x", "bro"⟩ then (compressData Ext.dummy .debug [F64.lit 5] demoArgs.comp).toOption
  else if q = ⟨"x", "wbro"⟩ then some [] else none

/-- **C86 is false for directories.** Uncompressing a directory, cut off when an output had just been created, cannot be run again: the empty
`.wbro` file is now part of the listing, reading its header fails and the run ends with that error (whatever the listing's order, the run fails;
here `x.wbro` comes first and `x.bro` is not uncompressed at all). -/
theorem C86_refuted_directory :
    okAnd (processSingle demoEnv { demoArgs with uncompress := true } (fun q => if q = ⟨"x", "wbro"⟩ then none else cutDirFs q) ⟨"x", "bro"⟩)
      (fun r => decide (r.2 = .ok ())) = true ∧
    okAnd (processDirectory (processSingle demoEnv { demoArgs with uncompress := true }) cutDirFs [(⟨"x", "wbro"⟩, true), (⟨"x", "bro"⟩, true)])
      (fun r => decide (r.2 = .error .io) && decide (r.1 ⟨"x", "wbro"⟩ = some [])) = true := by decide +kernel

/-! ### C87: repeating a directory run -/

/-- The content of a file `-u` passes over. -/
def Quiet (a : RunArgs) (o : Option Bytes) : Prop := ∃ c, o = some c ∧ Skipped a c

theorem wbro_quiet {a : RunArgs} (hu : a.uncompress = true) {d : List F64} {b : Bytes} (h : WavBrro.toFileWithData d = .ok b) : Skipped a b := by
  have hb : ∃ r, b = WavBrro.header ++ r := by
    unfold WavBrro.toFileWithData WavBrro.toFile at h
    obtain ⟨bs, -, h2⟩ := bind_ok_iff.1 h
    have := Except.ok.inj h2
    unfold WavBrro.wholeFile WavBrro.writtenFile at this
    rw [← this]
    split
    · exact ⟨[], rfl⟩
    · exact ⟨_, rfl⟩
  obtain ⟨r, rfl⟩ := hb
  refine ⟨hu, by rw [List.length_append]; exact Nat.le_add_right _ _, ?_⟩
  rw [List.take_append_of_le_length (by decide)]
  decide

/-- A successful directory run, one file at a time. -/
theorem processDirectory_cons {env : Env} {a : RunArgs} {fs fs' : Fs} {p : FPath} {rest : List (FPath × Bool)} :
    processDirectory (processSingle env a) fs ((p, true) :: rest) = .ok (fs', .ok ()) ↔
      ∃ fs1, processSingle env a fs p = .ok (fs1, .ok ()) ∧ processDirectory (processSingle env a) fs1 rest = .ok (fs', .ok ()) := by
  rw [processDirectory, if_pos rfl]
  constructor
  · intro h
    cases h1 : processSingle env a fs p with
    | error e => rw [h1] at h; cases h
    | ok r =>
      obtain ⟨s1, r1⟩ := r
      rw [h1] at h
      simp only [bind, Except.bind] at h
      cases r1 with
      | ok u => exact ⟨s1, rfl, h⟩
      | error e =>
        have hs := (C61_effects env a fs s1 p _ h1).2 e rfl
        subst hs
        dsimp only at h
        rw [h1] at h
        dsimp only at h
        exact absurd (congrArg Prod.snd (Except.ok.inj h)) (by simp)
  · rintro ⟨fs1, h1, h2⟩
    rw [h1]
    exact h2

theorem processDirectory_skip {env : Env} {a : RunArgs} {fs : Fs} {p : FPath} {rest : List (FPath × Bool)} :
    processDirectory (processSingle env a) fs ((p, false) :: rest) = processDirectory (processSingle env a) fs rest := by
  rw [processDirectory, if_neg (by simp)]

/-- A run leaves a quiet file quiet. -/
theorem quiet_step {env : Env} {a : RunArgs} {fs fs' : Fs} {p q : FPath} (h : processSingle env a fs p = .ok (fs', .ok ())) (hq : Quiet a (fs q)) :
    Quiet a (fs' q) := by
  obtain ⟨c, -, ⟨b, ho, rfl⟩ | ⟨-, rfl⟩⟩ := processSingle_ok_iff.1 h
  · unfold Fs.write
    by_cases e : q = outputPath a p
    · rw [if_pos e]
      obtain ⟨_, _, hs⟩ := hq
      cases ho with
      | uncompress hu _ _ _ h2 => exact ⟨b, rfl, wbro_quiet hu h2⟩
      | csv hu _ _ _ => rw [hs.1] at hu; cases hu
      | wbro hu _ _ _ => rw [hs.1] at hu; cases hu
    · rw [if_neg e]; exact hq
  · exact hq

theorem quiet_run {env : Env} {a : RunArgs} {q : FPath} : ∀ {entries : List (FPath × Bool)} {fs fs' : Fs},
    processDirectory (processSingle env a) fs entries = .ok (fs', .ok ()) → Quiet a (fs q) → Quiet a (fs' q)
  | [], fs, fs', h, hq => by
    rw [processDirectory] at h
    have hs : fs = fs' := congrArg Prod.fst (Except.ok.inj h)
    rw [← hs]; exact hq
  | (p, true) :: rest, fs, fs', h, hq => by
    obtain ⟨fs1, h1, h2⟩ := processDirectory_cons.1 h
    exact quiet_run h2 (quiet_step h1 hq)
  | (p, false) :: rest, fs, fs', h, hq => by
    rw [processDirectory_skip] at h
    exact quiet_run h hq

/-- After a successful run with `-u` every listed file with the extension of the outputs is a quiet one. -/
theorem settled {env : Env} {a : RunArgs} (hu : a.uncompress = true) : ∀ {entries : List (FPath × Bool)} {fs fs' : Fs},
    processDirectory (processSingle env a) fs entries = .ok (fs', .ok ()) → ∀ p ∈ regularFiles entries, p.ext = "wbro" → Quiet a (fs' p)
  | [], _, _, _, p, hp, _ => by simp [regularFiles] at hp
  | (p0, true) :: rest, fs, fs', h, p, hp, he => by
    obtain ⟨fs1, h1, h2⟩ := processDirectory_cons.1 h
    have hr : regularFiles ((p0, true) :: rest) = p0 :: regularFiles rest := rfl
    rw [hr] at hp
    rcases List.mem_cons.1 hp with rfl | hp
    · refine quiet_run h2 ?_
      obtain ⟨c, hc, ⟨b, ho, rfl⟩ | ⟨hs, rfl⟩⟩ := processSingle_ok_iff.1 h1
      · have hpo : outputPath a p = p := by unfold outputPath; rw [hu]; cases p; simp only at he; subst he; rfl
        rw [hpo, Fs.write_same]
        cases ho with
        | uncompress hu _ _ _ h2 => exact ⟨b, rfl, wbro_quiet hu h2⟩
        | csv hu' _ _ _ => rw [hu] at hu'; cases hu'
        | wbro hu' _ _ _ => rw [hu] at hu'; cases hu'
      · exact ⟨c, hc, hs⟩
    · exact settled hu h2 p hp he
  | (p0, false) :: rest, fs, fs', h, p, hp, he => by
    rw [processDirectory_skip] at h
    exact settled hu h p hp he

/-- Simulation of the first run by the second, both at the same entry: `s` and `g` are the states of the first and the second. -/
theorem again {env : Env} {a : RunArgs} (hu : a.uncompress = true) {fs' : Fs} : ∀ {entries : List (FPath × Bool)} {s g : Fs},
    processDirectory (processSingle env a) s entries = .ok (fs', .ok ()) → (∀ q, q.ext ≠ "wbro" → g q = s q) →
    (∀ q, g q = fs' q ∨ (g q = s q ∧ Quiet a (s q))) → (∀ p ∈ regularFiles entries, p.ext = "wbro" → Quiet a (fs' p)) →
    processDirectory (processSingle env a) g entries = .ok (fs', .ok ())
  | [], s, g, h, _, hg, _ => by
    rw [processDirectory] at h ⊢
    have hs : s = fs' := congrArg Prod.fst (Except.ok.inj h)
    have : g = fs' := by
      funext q
      rcases hg q with e | ⟨e, -⟩
      · exact e
      · rw [e, hs]
    rw [this]
  | (p, false) :: rest, s, g, h, hn, hg, hq => by
    rw [processDirectory_skip] at h ⊢
    exact again hu h hn hg hq
  | (p, true) :: rest, s, g, h, hn, hg, hq => by
    have hr : regularFiles ((p, true) :: rest) = p :: regularFiles rest := rfl
    obtain ⟨s1, h1, h2⟩ := processDirectory_cons.1 h
    have hout : (outputPath a p).ext = "wbro" := by unfold outputPath; rw [hu]; rfl
    obtain ⟨c, hc, hstep⟩ := processSingle_ok_iff.1 h1
    have hrest : ∀ p ∈ regularFiles rest, p.ext = "wbro" → Quiet a (fs' p) := fun p' hp' => hq p' (by rw [hr]; exact List.mem_cons_of_mem _ hp')
    by_cases he : p.ext = "wbro"
    · -- the second run passes over the file
      have hpo : outputPath a p = p := by unfold outputPath; rw [hu]; cases p; simp only at he; subst he; rfl
      have hquiet : Quiet a (g p) := by
        rcases hg p with e | ⟨e, hs⟩
        · rw [e]; exact hq p (by rw [hr]; exact List.mem_cons_self ..) he
        · rw [e]; exact hs
      obtain ⟨cg, e1, e2⟩ := hquiet
      refine processDirectory_cons.2 ⟨g, processSingle_ok_iff.2 ⟨cg, e1, .inr ⟨e2, rfl⟩⟩, again hu h2 ?_ ?_ hrest⟩
      · intro q hqe
        rw [hn q hqe]
        rcases hstep with ⟨b, -, rfl⟩ | ⟨-, rfl⟩
        · unfold Fs.write; rw [if_neg]; rintro rfl; exact hqe hout
        · rfl
      · intro q
        rcases hstep with ⟨b, ho, rfl⟩ | ⟨-, rfl⟩
        · by_cases hqp : q = p
          · subst hqp
            rcases hg q with e | ⟨e, hs⟩
            · exact .inl e
            · obtain ⟨cs, k1, k2⟩ := hs
              rw [hc] at k1
              obtain rfl := Option.some.inj k1
              exact absurd ho (fun ho => k2.no_output ho)
          · unfold Fs.write
            rw [hpo, if_neg hqp]
            exact hg q
        · exact hg q
    · -- the file has not changed: the second run does what the first did
      have hgp : g p = some c := by rw [hn p he, hc]
      rcases hstep with ⟨b, ho, rfl⟩ | ⟨hs, rfl⟩
      · refine processDirectory_cons.2 ⟨g.write (outputPath a p) b, processSingle_ok_iff.2 ⟨c, hgp, .inl ⟨b, ho, rfl⟩⟩, again hu h2 ?_ ?_ hrest⟩
        · intro q hqe
          unfold Fs.write
          have : q ≠ outputPath a p := by rintro rfl; exact hqe hout
          rw [if_neg this, if_neg this, hn q hqe]
        · intro q
          unfold Fs.write
          by_cases e : q = outputPath a p
          · rw [if_pos e]
            refine .inr ⟨by rw [if_pos e], ?_⟩
            rw [if_pos e]
            cases ho with
            | uncompress hu _ _ _ h2 => exact ⟨b, rfl, wbro_quiet hu h2⟩
            | csv hu' _ _ _ => rw [hu] at hu'; cases hu'
            | wbro hu' _ _ _ => rw [hu] at hu'; cases hu'
          · rw [if_neg e, if_neg e]; exact hg q
      · exact processDirectory_cons.2 ⟨g, processSingle_ok_iff.2 ⟨c, hgp, .inr ⟨hs, rfl⟩⟩, again hu h2 hn hg hrest⟩

/-- **C87, uncompressing.** Uncompressing a directory a second time, over the same listing, succeeds and changes nothing - whatever files the
directory holds, even several that share an output or are one.  (For compression this is false: `C87_refuted_compress`.) -/
theorem C87_uncompress_again (env : Env) (a : RunArgs) (hu : a.uncompress = true) (fs fs' : Fs) (entries : List (FPath × Bool))
    (h : processDirectory (processSingle env a) fs entries = .ok (fs', .ok ())) :
    processDirectory (processSingle env a) fs' entries = .ok (fs', .ok ()) :=
  again hu h (fun q hq => by
    have : ∀ {entries : List (FPath × Bool)} {s : Fs}, processDirectory (processSingle env a) s entries = .ok (fs', .ok ()) → fs' q = s q := by
      intro entries
      induction entries with
      | nil => intro s h; rw [processDirectory] at h; have hs : s = fs' := congrArg Prod.fst (Except.ok.inj h); rw [hs]
      | cons e rest ih =>
        intro s h
        obtain ⟨p, b⟩ := e
        cases b with
        | false => rw [processDirectory_skip] at h; exact ih h
        | true =>
          obtain ⟨s1, h1, h2⟩ := processDirectory_cons.1 h
          rw [ih h2]
          refine (C61_effects env a s s1 p _ h1).1 q ?_
          rintro rfl
          apply hq
          unfold outputPath; rw [hu]; rfl
    exact this h) (fun q => .inl rfl) (settled hu h)

/-- New `.wbro` files in the listing of the second run do not matter either: they are passed over. -/
theorem C87_outputs_passed_over (env : Env) (a : RunArgs) (fs fs' : Fs) (p : FPath) (c b : Bytes) (hu : a.uncompress = true) (hc : fs p = some c)
    (ho : Output env a c b) (h : processSingle env a fs p = .ok (fs', .ok ())) : processSingle env a fs' (outputPath a p) = .ok (fs', .ok ()) := by
  obtain ⟨c', hc', ⟨b', ho', rfl⟩ | ⟨hs, -⟩⟩ := processSingle_ok_iff.1 h
  · refine processSingle_ok_iff.2 ⟨b', Fs.write_same _ _ _, .inr ⟨?_, rfl⟩⟩
    cases ho' with
    | uncompress hu _ _ _ h2 => exact wbro_quiet hu h2
    | csv hu' _ _ _ => rw [hu] at hu'; cases hu'
    | wbro hu' _ _ _ => rw [hu] at hu'; cases hu'
  · rw [hc] at hc'
    obtain rfl := Option.some.inj hc'
    exact absurd ho (fun ho => hs.no_output ho)

/-- What a run with `-u` changed is quiet afterwards. -/
theorem changed_quiet {env : Env} {a : RunArgs} (hu : a.uncompress = true) {q : FPath} : ∀ {entries : List (FPath × Bool)} {fs fs' : Fs},
    processDirectory (processSingle env a) fs entries = .ok (fs', .ok ()) → fs' q ≠ fs q → Quiet a (fs' q)
  | [], fs, fs', h, hq => by
    rw [processDirectory] at h
    have hs : fs = fs' := congrArg Prod.fst (Except.ok.inj h)
    exact absurd (by rw [hs]) hq
  | (p, false) :: rest, fs, fs', h, hq => by
    rw [processDirectory_skip] at h
    exact changed_quiet hu h hq
  | (p, true) :: rest, fs, fs', h, hq => by
    obtain ⟨fs1, h1, h2⟩ := processDirectory_cons.1 h
    by_cases e : fs' q = fs1 q
    · refine quiet_run h2 ?_
      obtain ⟨c, -, ⟨b, ho, rfl⟩ | ⟨-, rfl⟩⟩ := processSingle_ok_iff.1 h1
      · unfold Fs.write at e ⊢
        by_cases e2 : q = outputPath a p
        · rw [if_pos e2]
          cases ho with
          | uncompress hu _ _ _ h2 => exact ⟨b, rfl, wbro_quiet hu h2⟩
          | csv hu' _ _ _ => rw [hu] at hu'; cases hu'
          | wbro hu' _ _ _ => rw [hu] at hu'; cases hu'
        · rw [if_neg e2] at e
          exact absurd e hq
      · exact absurd e hq
    · exact changed_quiet hu h2 e

/-- Specification: the second listing holds the first, in its order, and anywhere in between files that the first run created. -/
inductive GrownBy (new : FPath → Prop) : List (FPath × Bool) → List (FPath × Bool) → Prop
  | nil : GrownBy new [] []
  | same (e : FPath × Bool) {l l' : List (FPath × Bool)} : GrownBy new l l' → GrownBy new (e :: l) (e :: l')
  | created (q : FPath) (b : Bool) {l l' : List (FPath × Bool)} : new q → GrownBy new l l' → GrownBy new l ((q, b) :: l')

theorem grownBy_run {env : Env} {a : RunArgs} {fs' : Fs} {new : FPath → Prop} {l l' : List (FPath × Bool)} (hg : GrownBy new l l') :
    ∀ {g : Fs}, (∀ q, new q → Quiet a (g q)) → processDirectory (processSingle env a) g l = .ok (fs', .ok ()) →
      processDirectory (processSingle env a) g l' = .ok (fs', .ok ()) := by
  induction hg with
  | nil => intro g _ h; exact h
  | same e hg ih =>
    intro g hq h
    obtain ⟨p, b⟩ := e
    cases b with
    | false => rw [processDirectory_skip] at h ⊢; exact ih hq h
    | true =>
      obtain ⟨g1, h1, h2⟩ := processDirectory_cons.1 h
      exact processDirectory_cons.2 ⟨g1, h1, ih (fun q hn => quiet_step h1 (hq q hn)) h2⟩
  | created q b hn hg ih =>
    intro g hq h
    cases b with
    | false => rw [processDirectory_skip]; exact ih hq h
    | true =>
      obtain ⟨c, hc, hs⟩ := hq q hn
      exact processDirectory_cons.2 ⟨g, processSingle_ok_iff.2 ⟨c, hc, .inr ⟨hs, rfl⟩⟩, ih hq h⟩

/-- **C87, with the outputs in the listing.** Uncompressing a directory a second time succeeds and changes nothing, wherever the listing now holds the files that the
first run created or changed. -/
theorem C87_uncompress_again_grown (env : Env) (a : RunArgs) (hu : a.uncompress = true) (fs fs' : Fs) (entries entries' : List (FPath × Bool))
    (h : processDirectory (processSingle env a) fs entries = .ok (fs', .ok ())) (hg : GrownBy (fun q => fs' q ≠ fs q) entries entries') :
    processDirectory (processSingle env a) fs' entries' = .ok (fs', .ok ()) :=
  grownBy_run hg (fun _ hq => changed_quiet hu h hq) (C87_uncompress_again env a hu fs fs' entries h)

/-- For instance the listing `x.bro` becomes `x.wbro`, `x.bro`. -/
example (fs fs' : Fs) (h : fs' ⟨"x", "wbro"⟩ ≠ fs ⟨"x", "wbro"⟩) :
    GrownBy (fun q => fs' q ≠ fs q) [(⟨"x", "bro"⟩, true)] [(⟨"x", "wbro"⟩, true), (⟨"x", "bro"⟩, true)] :=
  .created _ _ h (.same _ .nil)

theorem compressed_marked {E : Ext} {p : Profile} {d : List F64} {a : CompArgs} {bs : Bytes} (h : compressData E p d a = .ok bs) :
    bs.take 4 = [66, 82, 82, 79] := by
  unfold compressData at h
  obtain ⟨op, -, h⟩ := bind_ok_iff.1 h
  obtain ⟨ex, -, h⟩ := bind_ok_iff.1 h
  obtain ⟨s, -, h⟩ := bind_ok_iff.1 h
  rw [← Except.ok.inj h]
  rfl

/-- **C87 is false for compression.** Whatever a listing holds, the first compressed file in it ends the run with an error (a format error, or an
I/O error for one of fewer than 12 bytes), and nothing after it is processed: a directory whose files have been compressed in place cannot be
compressed again, nor can one be compressed in a single run if `read_dir` returns the files created during the walk. -/
theorem C87_refuted_compress (env : Env) (a : RunArgs) (hu : a.uncompress = false) (hcsv : a.csv = false) (fs fs1 : Fs) (pre post : List (FPath × Bool))
    (q : FPath) (d : List F64) (ca : CompArgs) (bs : Bytes) (hbs : compressData env.E env.p d ca = .ok bs)
    (hpre : processDirectory (processSingle env a) fs pre = .ok (fs1, .ok ())) (hq : fs1 q = some bs) :
    processDirectory (processSingle env a) fs (pre ++ (q, true) :: post) = .ok (fs1, .error (if bs.length < 12 then .io else .format)) := by
  have h1 : processSingle env a fs1 q = .ok (fs1, .error (if bs.length < 12 then .io else .format)) := by
    unfold processSingle
    rw [if_neg (by simp [hu]), if_neg (by simp [hcsv]), hq]
    by_cases hl : bs.length < 12
    · rw [if_pos hl]
      simp only [(C39_rejects env.addr bs).1 hl, bind, Except.bind]
    · rw [if_neg hl]
      have := (C39_rejects env.addr bs).2 (by omega) (fun e => by
        have := compressed_marked hbs
        rw [e.1] at this
        exact absurd this (by decide))
      simp only [this, bind, Except.bind]
  exact C55_refuted_abort env a fs fs1 fs1 pre post q _ hpre h1

/-- In a single run: the listing returns `x.wbro`, then the `x.bro` just created, then `y.wbro`, which is never compressed. -/
example : okAnd (processDirectory (processSingle demoEnv demoArgs) (fun q => if q = ⟨"y", "wbro"⟩ then demoFs ⟨"x", "wbro"⟩ else demoFs q)
    [(⟨"x", "wbro"⟩, true), (⟨"x", "bro"⟩, true), (⟨"y", "wbro"⟩, true)])
    (fun r => decide (r.2 = .error .format) && (r.1 ⟨"x", "bro"⟩).isSome && (r.1 ⟨"y", "bro"⟩).isNone) = true := by decide +kernel

/-- The second `-u` run executed. -/
example : okAnd (processSingle demoEnv demoArgs demoFs ⟨"x", "wbro"⟩) (fun s =>
    okAnd (processDirectory (processSingle demoEnv { demoArgs with uncompress := true }) s.1 [(⟨"x", "wbro"⟩, true), (⟨"x", "bro"⟩, true)]) (fun r =>
      decide (r.2 = .ok ()) && decide (r.1 ⟨"x", "wbro"⟩ ≠ s.1 ⟨"x", "wbro"⟩) &&
      okAnd (processDirectory (processSingle demoEnv { demoArgs with uncompress := true }) r.1 [(⟨"x", "wbro"⟩, true), (⟨"x", "bro"⟩, true)]) (fun r' =>
        decide (r'.2 = .ok ()) && decide (r'.1 ⟨"x", "wbro"⟩ = r.1 ⟨"x", "wbro"⟩)))) = true := by decide +kernel

/-! ### C88: the exit status -/

theorem runSingle_ok {env : Env} {a : RunArgs} {fs fs' : Fs} {p : FPath} :
    runSingle env a fs p = (fs', .ok) ↔ processSingle env a fs p = .ok (fs', .ok ()) := by
  unfold runSingle
  constructor
  · intro h
    split at h
    · rename_i hp; rw [hp]; cases h; rfl
    · cases h
    · cases h
  · intro h; rw [h]

/-- A run on one file that does not end well leaves every file as it was. -/
theorem runSingle_bad {env : Env} {a : RunArgs} {fs fs' : Fs} {p : FPath} {e : Ended} (h : runSingle env a fs p = (fs', e)) (he : e ≠ .ok) : fs' = fs := by
  unfold runSingle at h
  split at h
  · cases h; exact absurd rfl he
  · rename_i f e' hp
    cases h
    exact (C61_effects env a fs fs' p _ hp).2 _ rfl
  · cases h; rfl

theorem status_zero {e : Ended} : e.status = 0 ↔ e = .ok := by cases e <;> simp [Ended.status]

/-- **C88, one file.** The exit status of a run on one file is 0, 1 or 101; if it is not 0 no file has changed; if it is 0 the output file holds what
the program should produce from the input, and no other file has changed - unless the run was a `-u` one on a file that is not a BRRO file
(`C88_refuted_skip`). -/
theorem C88_file (env : Env) (a : RunArgs) (fs : Fs) (path : FPath) :
    ((runMain env a fs (.file path)).2 = 0 ∨ (runMain env a fs (.file path)).2 = 1 ∨ (runMain env a fs (.file path)).2 = 101) ∧
    ((runMain env a fs (.file path)).2 ≠ 0 → (runMain env a fs (.file path)).1 = fs) ∧
    ((runMain env a fs (.file path)).2 = 0 → ∃ c, fs path = some c ∧ (¬ Skipped a c →
      (∃ b, Output env a c b ∧ (runMain env a fs (.file path)).1 (outputPath a path) = some b) ∧
      ∀ q, q ≠ outputPath a path → (runMain env a fs (.file path)).1 q = fs q)) := by
  unfold runMain runArgs
  dsimp only
  cases hr : runSingle env a fs path with
  | mk fs' e =>
    dsimp only
    refine ⟨by cases e <;> simp [Ended.status], fun he => runSingle_bad hr (fun h => he (status_zero.2 h)), fun he => ?_⟩
    rw [status_zero.1 he] at hr
    obtain ⟨c, hc, h⟩ := processSingle_ok_iff.1 (runSingle_ok.1 hr)
    refine ⟨c, hc, fun hs => ?_⟩
    rcases h with ⟨b, ho, rfl⟩ | ⟨h, -⟩
    · exact ⟨⟨b, ho, Fs.write_same _ _ _⟩, fun q hq => if_neg hq⟩
    · exact absurd h hs

/-- **C88, one file, exactly.** Status 0, and the files afterwards, is exactly: the input can be turned into an output, which is written; or it is one `-u`
passes over, and nothing changes. -/
theorem C88_exact (env : Env) (a : RunArgs) (fs fs' : Fs) (path : FPath) :
    runMain env a fs (.file path) = (fs', 0) ↔
      ∃ c, fs path = some c ∧ ((∃ b, Output env a c b ∧ fs' = fs.write (outputPath a path) b) ∨ (Skipped a c ∧ fs' = fs)) := by
  rw [← processSingle_ok_iff, ← runSingle_ok]
  unfold runMain runArgs
  dsimp only
  cases hr : runSingle env a fs path with
  | mk f e =>
    dsimp only
    constructor
    · intro h
      have h1 := congrArg Prod.fst h
      have h2 := congrArg Prod.snd h
      dsimp only at h1 h2
      rw [h1, status_zero.1 h2]
    · intro h
      cases h
      rfl

/-- **C88 is false for `-u`.** For every file of at least 12 bytes that does not begin with `BRRO`, a `-u` run exits with status 0 and writes nothing. -/
theorem C88_refuted_skip (env : Env) (a : RunArgs) (hu : a.uncompress = true) (fs : Fs) (path : FPath) (c : Bytes) (hc : fs path = some c)
    (hl : 12 ≤ c.length) (h4 : c.take 4 ≠ [66, 82, 82, 79]) : runMain env a fs (.file path) = (fs, 0) := by
  have : runSingle env a fs path = (fs, .ok) := runSingle_ok.2 (processSingle_ok_iff.2 ⟨c, hc, .inr ⟨⟨hu, hl, h4⟩, rfl⟩⟩)
  unfold runMain runArgs
  dsimp only
  rw [this]
  rfl

/-- A path that is neither a file nor a directory, or does not exist: status 1, nothing changes. -/
theorem C88_no_input (env : Env) (a : RunArgs) (fs : Fs) : runMain env a fs .missing = (fs, 1) ∧ runMain env a fs .other = (fs, 1) := ⟨rfl, rfl⟩

theorem runDir_ok {env : Env} {a : RunArgs} : ∀ {entries : List (FPath × Bool)} {fs fs' : Fs},
    runDir env a fs entries = (fs', .ok) ↔ processDirectory (processSingle env a) fs entries = .ok (fs', .ok ())
  | [], fs, fs' => by
    rw [runDir, processDirectory]
    constructor
    · intro h; have := congrArg Prod.fst h; simp only at this; rw [this]
    · intro h; have := congrArg Prod.fst (Except.ok.inj h); simp only at this; rw [this]
  | (p, false) :: rest, fs, fs' => by
    rw [processDirectory_skip, runDir, if_neg (by simp)]
    exact runDir_ok
  | (p, true) :: rest, fs, fs' => by
    rw [processDirectory_cons, runDir, if_pos rfl]
    constructor
    · intro h
      split at h
      · rename_i fs1 h1; exact ⟨fs1, runSingle_ok.1 h1, runDir_ok.1 h⟩
      · cases h
      · rename_i fs1 h1
        have hs := runSingle_bad h1 (by simp)
        subst hs
        rw [h1] at h
        cases h
    · rintro ⟨fs1, h1, h2⟩
      rw [runSingle_ok.2 h1]
      exact runDir_ok.2 h2

/-- The files of a directory do not get in each other's way: no two share an output, and none is an output of another. -/
def Separate (a : RunArgs) (ps : List FPath) : Prop :=
  ps.Pairwise (fun p q => outputPath a p ≠ outputPath a q ∧ outputPath a p ≠ q ∧ outputPath a q ≠ p)

theorem dir_outputs {env : Env} {a : RunArgs} : ∀ {entries : List (FPath × Bool)} {fs fs' : Fs},
    processDirectory (processSingle env a) fs entries = .ok (fs', .ok ()) → Separate a (regularFiles entries) →
    (∀ q, (∀ p ∈ regularFiles entries, q ≠ outputPath a p) → fs' q = fs q) ∧
    ∀ p ∈ regularFiles entries, ∃ c, fs p = some c ∧ (¬ Skipped a c → ∃ b, Output env a c b ∧ fs' (outputPath a p) = some b)
  | [], fs, fs', h, _ => by
    rw [processDirectory] at h
    have := congrArg Prod.fst (Except.ok.inj h)
    simp only at this
    subst this
    exact ⟨fun _ _ => rfl, fun p hp => by simp [regularFiles] at hp⟩
  | (p, false) :: rest, fs, fs', h, hs => by
    rw [processDirectory_skip] at h
    exact dir_outputs (entries := rest) h hs
  | (p, true) :: rest, fs, fs', h, hs => by
    have hr : regularFiles ((p, true) :: rest) = p :: regularFiles rest := rfl
    rw [hr] at hs ⊢
    obtain ⟨hs1, hs2⟩ := List.pairwise_cons.1 hs
    obtain ⟨fs1, h1, h2⟩ := processDirectory_cons.1 h
    obtain ⟨g1, g2⟩ := dir_outputs h2 hs2
    have heff := (C61_effects env a fs fs1 p _ h1).1
    refine ⟨fun q hq => ?_, fun p' hp' => ?_⟩
    · rw [g1 q (fun p' hp' => hq p' (List.mem_cons_of_mem _ hp')), heff q (hq p (List.mem_cons_self ..))]
    · rcases List.mem_cons.1 hp' with rfl | hp'
      · obtain ⟨c, hc, hstep⟩ := processSingle_ok_iff.1 h1
        refine ⟨c, hc, fun hn => ?_⟩
        rcases hstep with ⟨b, ho, rfl⟩ | ⟨h, -⟩
        · refine ⟨b, ho, ?_⟩
          rw [g1 _ (fun q hq => (hs1 q hq).1), Fs.write_same]
        · exact absurd h hn
      · obtain ⟨c, hc, h⟩ := g2 p' hp'
        refine ⟨c, ?_, h⟩
        rw [← heff p' (fun e => (hs1 p' hp').2.1 e.symm)]
        exact hc

/-- **C88, directories.** If a run on a directory exits with status 0, then for every regular file in it (but those `-u` passes over) the output file
holds what the program should produce from that file, and nothing else has changed - provided no two of the files share an output and none is
the output of another. -/
theorem C88_directory (env : Env) (a : RunArgs) (fs : Fs) (entries : List (FPath × Bool)) (hs : Separate a (regularFiles entries))
    (h : (runMain env a fs (.dir entries)).2 = 0) :
    (∀ p ∈ regularFiles entries, ∃ c, fs p = some c ∧ (¬ Skipped a c →
      ∃ b, Output env a c b ∧ (runMain env a fs (.dir entries)).1 (outputPath a p) = some b)) ∧
    ∀ q, (∀ p ∈ regularFiles entries, q ≠ outputPath a p) → (runMain env a fs (.dir entries)).1 q = fs q := by
  unfold runMain runArgs at h ⊢
  dsimp only at h ⊢
  cases hr : runDir env a fs entries with
  | mk fs' e =>
    rw [hr] at h
    have he : e = .ok := status_zero.1 h
    subst he
    obtain ⟨g1, g2⟩ := dir_outputs (runDir_ok.1 hr) hs
    exact ⟨g2, g1⟩

theorem dir_succeeds {env : Env} {a : RunArgs} : ∀ {entries : List (FPath × Bool)} {fs : Fs}, Separate a (regularFiles entries) →
    (∀ p ∈ regularFiles entries, ∃ c, fs p = some c ∧ (Skipped a c ∨ ∃ b, Output env a c b)) →
    ∃ fs', processDirectory (processSingle env a) fs entries = .ok (fs', .ok ())
  | [], fs, _, _ => ⟨fs, by rw [processDirectory]⟩
  | (p, false) :: rest, fs, hs, h => by
    obtain ⟨fs', h'⟩ := dir_succeeds (entries := rest) (fs := fs) hs h
    exact ⟨fs', by rw [processDirectory_skip]; exact h'⟩
  | (p, true) :: rest, fs, hs, h => by
    have hr : regularFiles ((p, true) :: rest) = p :: regularFiles rest := rfl
    rw [hr] at hs h
    obtain ⟨hs1, hs2⟩ := List.pairwise_cons.1 hs
    obtain ⟨c, hc, hstep⟩ := h p (List.mem_cons_self ..)
    obtain ⟨fs1, h1⟩ : ∃ fs1, processSingle env a fs p = .ok (fs1, .ok ()) := by
      rcases hstep with hk | ⟨b, ho⟩
      · exact ⟨fs, processSingle_ok_iff.2 ⟨c, hc, .inr ⟨hk, rfl⟩⟩⟩
      · exact ⟨_, processSingle_ok_iff.2 ⟨c, hc, .inl ⟨b, ho, rfl⟩⟩⟩
    have heff := (C61_effects env a fs fs1 p _ h1).1
    obtain ⟨fs', h2⟩ := dir_succeeds (entries := rest) (fs := fs1) hs2 (fun p' hp' => by
      rw [heff p' (fun e => (hs1 p' hp').2.1 e.symm)]
      exact h p' (List.mem_cons_of_mem _ hp'))
    exact ⟨fs', processDirectory_cons.2 ⟨fs1, h1, h2⟩⟩

/-- **C88, directories, exactly**, under the same proviso: the status is 0 exactly when every regular file can be turned into an output or is one `-u` passes
over; so any other status means that some file could not. -/
theorem C88_directory_exact (env : Env) (a : RunArgs) (fs : Fs) (entries : List (FPath × Bool)) (hs : Separate a (regularFiles entries)) :
    (runMain env a fs (.dir entries)).2 = 0 ↔ ∀ p ∈ regularFiles entries, ∃ c, fs p = some c ∧ (Skipped a c ∨ ∃ b, Output env a c b) := by
  constructor
  · intro h p hp
    obtain ⟨c, hc, h'⟩ := (C88_directory env a fs entries hs h).1 p hp
    refine ⟨c, hc, ?_⟩
    by_cases hk : Skipped a c
    · exact .inl hk
    · obtain ⟨b, ho, -⟩ := h' hk
      exact .inr ⟨b, ho⟩
  · intro h
    obtain ⟨fs', h'⟩ := dir_succeeds hs h
    unfold runMain runArgs
    dsimp only
    rw [runDir_ok.2 h']
    rfl

/-- What the proviso excludes: `x.wbro` and `x.wbro2` share the output `x.bro`; the run exits with status 0
and only the last one's output is left. -/
theorem C88_refuted_shared (env : Env) (a : RunArgs) (fs : Fs) (p q : FPath) (hpq : outputPath a p = outputPath a q) (hq : q ≠ outputPath a p)
    (cp cq bp bq : Bytes) (h1 : fs p = some cp) (h2 : fs q = some cq) (o1 : Output env a cp bp) (o2 : Output env a cq bq) :
    runMain env a fs (.dir [(p, true), (q, true)]) = (fs.write (outputPath a p) bq, 0) := by
  have : runDir env a fs [(p, true), (q, true)] = (fs.write (outputPath a p) bq, .ok) := by
    refine runDir_ok.2 (processDirectory_cons.2 ⟨fs.write (outputPath a p) bp, processSingle_ok_iff.2 ⟨cp, h1, .inl ⟨bp, o1, rfl⟩⟩,
      processDirectory_cons.2 ⟨fs.write (outputPath a p) bq, processSingle_ok_iff.2 ⟨cq, ?_, .inl ⟨bq, o2, ?_⟩⟩, rfl⟩⟩)
    · unfold Fs.write; rw [if_neg hq]; exact h2
    · funext r
      unfold Fs.write
      rw [hpq]
      by_cases e : r = outputPath a q
      · rw [if_pos e, if_pos e]
      · rw [if_neg e, if_neg e, if_neg e]
  unfold runMain runArgs
  dsimp only
  rw [this]
  rfl

/-- Exit statuses of concrete runs: compression of a directory of one file, the same twice, `-u` on a text file, a missing input. -/
example : (runMain demoEnv demoArgs demoFs (.dir [(⟨"x", "wbro"⟩, true)])).2 = 0 := by decide +kernel
example : (runMain demoEnv demoArgs demoFs (.dir [(⟨"x", "wbro"⟩, true), (⟨"x", "bro"⟩, true)])).2 = 1 := by decide +kernel
example : (runMain demoEnv demoArgs (fun _ => some (WavBrro.header ++ [1, 2, 3])) (.file ⟨"x", "wbro"⟩)).2 = 101 := by decide +kernel
example : Separate demoArgs (regularFiles [(⟨"x", "wbro"⟩, true), (⟨"d", ""⟩, false), (⟨"y", "wbro"⟩, true)]) := by
  unfold Separate regularFiles; decide

/-- Two inputs, one output: status 0, and the output is the last input's. -/
example : (runMain demoEnv demoArgs (fun q => if q = ⟨"x", "old"⟩ then (WavBrro.toFileWithData [F64.lit 1]).toOption else demoFs q)
    (.dir [(⟨"x", "old"⟩, true), (⟨"x", "wbro"⟩, true)])).2 = 0 ∧
    (runMain demoEnv demoArgs (fun q => if q = ⟨"x", "old"⟩ then (WavBrro.toFileWithData [F64.lit 1]).toOption else demoFs q)
      (.dir [(⟨"x", "old"⟩, true), (⟨"x", "wbro"⟩, true)])).1 ⟨"x", "bro"⟩ = (runMain demoEnv demoArgs demoFs (.file ⟨"x", "wbro"⟩)).1 ⟨"x", "bro"⟩ := by
  decide +kernel
/-- `-u` on a WBRO file: status 0, nothing written. -/
example : (runMain demoEnv { demoArgs with uncompress := true } demoFs (.file ⟨"x", "wbro"⟩)).2 = 0 ∧
    (runMain demoEnv { demoArgs with uncompress := true } demoFs (.file ⟨"x", "wbro"⟩)).1 ⟨"x", "wbro"⟩ = demoFs ⟨"x", "wbro"⟩ := by decide +kernel


/-- Specification: the input is one the program recognises as unreadable - missing, too short, without the marks of a WBRO file, a rejected CSV text. -/
def Unreadable (env : Env) (a : RunArgs) (c : Option Bytes) : Prop :=
  ∀ b, c = some b →
    if a.uncompress then b.length < 12
    else if a.csv then ∃ e, readCsv env a b = .ok (.error e)
    else b.length < 12 ∨ ¬ (b.take 4 = [87, 66, 82, 79] ∧ (b.drop 8).take 4 = [87, 66, 82, 79])

/-- C88, one file: the status is 1 exactly when the input is recognised as unreadable; so a status other than 0 on any other input is 101, a panic. -/
theorem C88_status (env : Env) (a : RunArgs) (fs : Fs) (path : FPath) :
    (runMain env a fs (.file path)).2 = 1 ↔ Unreadable env a (fs path) := by
  have key : (runMain env a fs (.file path)).2 = 1 ↔ ∃ f e, processSingle env a fs path = .ok (f, .error e) := by
    unfold runMain runArgs
    dsimp only
    unfold runSingle
    rcases processSingle env a fs path with e | ⟨f, e | u⟩ <;> simp [Ended.status]
  rw [key]
  unfold processSingle Unreadable
  cases hc : fs path with
  | none => 
    by_cases hu : a.uncompress = true
    · simp [hu]
    · by_cases hv : a.csv = true <;> simp [hu, hv]
  | some c =>
    simp only [Option.some.injEq, forall_eq']
    by_cases hu : a.uncompress = true
    · simp only [hu, if_true]
      unfold broRead
      by_cases h12 : c.length < 12
      · simp [h12]
      · simp only [h12, if_false, iff_false]
        rintro ⟨f, e, h⟩
        split at h
        · rename_i h'; split at h' <;> cases h'
        · cases h
        · obtain ⟨d, -, h⟩ := bind_ok_iff.1 h
          obtain ⟨o, -, h⟩ := bind_ok_iff.1 h
          cases h
    · by_cases hv : a.csv = true
      · simp only [hu, hv, if_true]
        constructor
        · rintro ⟨f, e, h⟩
          obtain ⟨r, h1, h⟩ := bind_ok_iff.1 h
          cases r with
          | error e => exact ⟨e, h1⟩
          | ok d =>
            obtain ⟨o, -, h⟩ := bind_ok_iff.1 h
            cases h
        · rintro ⟨e, h⟩
          rw [h]
          exact ⟨_, _, rfl⟩
      · simp only [hu, hv]
        constructor
        · rintro ⟨f, e, h⟩
          obtain ⟨r, h1, h⟩ := bind_ok_iff.1 h
          by_contra hcon
          rw [if_neg (by simp), if_neg (by simp)] at hcon
          obtain ⟨hc1, hc2⟩ := not_or.1 hcon
          unfold WavBrro.fromFile at h1
          rw [if_neg hc1, if_neg (show ¬¬(WavBrro.sliceAt c 0 4 = WavBrro.wbro ∧ WavBrro.sliceAt c 8 4 = WavBrro.wbro) from hc2)] at h1
          obtain ⟨w, -, h1⟩ := bind_ok_iff.1 h1
          cases h1
          obtain ⟨o, -, h⟩ := bind_ok_iff.1 h
          cases h
        · intro h
          rw [if_neg (by simp), if_neg (by simp)] at h
          have h12 := C39_rejects env.addr c
          by_cases hl : c.length < 12
          · rw [h12.1 hl]; exact ⟨_, _, rfl⟩
          · rw [h12.2 (by omega) (by tauto)]; exact ⟨_, _, rfl⟩

/-- A file with the marks of a WBRO file and a damaged body ends in a panic: status 101. -/
example : ¬ Unreadable demoEnv demoArgs (some (WavBrro.header ++ [1, 2, 3])) := by
  intro h
  have := h _ rfl
  rw [if_neg (by decide), if_neg (by decide)] at this
  revert this
  decide

end Atsc
