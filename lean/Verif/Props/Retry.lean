import Verif.Props.IoFaults
/- C117: an undisturbed run after failed ones. -/
namespace Atsc

/-! ### What the functions that write files can change -/

theorem writeAll_only {f : Fault} {bad : Ended} {fs : Fs} {o q : FPath} {bs : Bytes} (h : (writeAll f bad fs o bs).1 q ≠ fs q) : q = o := by
  by_contra hq
  apply h
  rcases writeAll_cases f bad fs o bs with e | e | ⟨k, -, e⟩ <;> rw [e]
  · exact if_neg hq
  · exact if_neg hq

theorem writeWbro_only {f : Fault} {fs : Fs} {o q : FPath} {t : Bytes} (h : (writeWbro f fs o t).1 q ≠ fs q) : q = o := by
  by_contra hq
  apply h
  unfold writeWbro
  split
  · rfl
  · split
    · exact if_neg hq
    · split
      · exact if_neg hq
      · exact if_neg hq

theorem writeCsvIo_only {f : Fault} {fs : Fs} {o q : FPath} {bs : Bytes} (h : (writeCsvIo f fs o bs).1 q ≠ fs q) : q = o := by
  by_contra hq
  apply h
  unfold writeCsvIo
  split
  · rfl
  · split
    · exact if_neg hq
    · split
      · exact if_neg hq
      · exact if_neg hq

/-! ### atsc -/

/-- How the undisturbed run on one file ends depends on the content of that file only. -/
theorem runSingle_ends {env : Env} {a : RunArgs} {fs g : Fs} {p : FPath} (hg : g p = fs p) : (runSingle env a g p).2 = (runSingle env a fs p).2 := by
  have ok (s : Fs) : (runSingle env a s p).2 = .ok ↔ ∃ c, s p = some c ∧ ((∃ b, Output env a c b) ∨ Skipped a c) := by
    constructor
    · intro h
      obtain ⟨c, hc, ⟨b, ho, -⟩ | ⟨hs, -⟩⟩ := processSingle_ok_iff.1 (runSingle_ok.1 (show runSingle env a s p = ((runSingle env a s p).1, .ok) from Prod.ext rfl h))
      · exact ⟨c, hc, .inl ⟨b, ho⟩⟩
      · exact ⟨c, hc, .inr hs⟩
    · rintro ⟨c, hc, ⟨b, ho⟩ | hs⟩
      · rw [runSingle_writes hc ho]
      · rw [runSingle_ok.2 (processSingle_ok_iff.2 ⟨c, hc, .inr ⟨hs, rfl⟩⟩)]
  have err (s : Fs) : (runSingle env a s p).2 = .err ↔ Unreadable env a (s p) := by
    rw [← C88_status]
    show _ ↔ (runSingle env a s p).2.status = 1
    cases (runSingle env a s p).2 <;> simp [Ended.status]
  have h1 := (ok g).trans ((by rw [hg] : _ ↔ _).trans (ok fs).symm)
  have h2 := (err g).trans ((by rw [hg] : _ ↔ _).trans (err fs).symm)
  cases e1 : (runSingle env a g p).2 <;> cases e2 : (runSingle env a fs p).2 <;> rw [e1, e2] at h1 h2 <;> simp at h1 h2 ⊢

/-- The undisturbed run on one file, on any files that agree on its input. -/
theorem runSingle_form (env : Env) (a : RunArgs) (fs : Fs) (p : FPath) :
    (∃ c b, fs p = some c ∧ Output env a c b ∧ ∀ g : Fs, g p = fs p → runSingle env a g p = (g.write (outputPath a p) b, .ok)) ∨
    ((∀ c b, fs p = some c → ¬ Output env a c b) ∧ ∃ e, ∀ g : Fs, g p = fs p → runSingle env a g p = (g, e)) := by
  by_cases h : ∃ c b, fs p = some c ∧ Output env a c b
  · obtain ⟨c, b, hc, ho⟩ := h
    exact .inl ⟨c, b, hc, ho, fun g hg => runSingle_writes (hg.trans hc) ho⟩
  · refine .inr ⟨fun c b hc ho => h ⟨c, b, hc, ho⟩, (runSingle env a fs p).2, fun g hg => ?_⟩
    refine Prod.ext ?_ (runSingle_ends hg)
    show (runSingle env a g p).1 = g
    by_cases he : (runSingle env a g p).2 = .ok
    · obtain ⟨c, hc, ⟨b, ho, -⟩ | ⟨-, e⟩⟩ := processSingle_ok_iff.1 (runSingle_ok.1 (show runSingle env a g p = ((runSingle env a g p).1, .ok) from Prod.ext rfl he))
      · exact absurd ⟨c, b, hg.symm.trans hc, ho⟩ h
      · exact e
    · exact runSingle_bad (fs' := (runSingle env a g p).1) (e := (runSingle env a g p).2) rfl he

/-- A disturbed attempt changes nothing but an output that the undisturbed run would write. -/
theorem attempt_changes {env : Env} {a : RunArgs} {f : Fault} {fs : Fs} {p q : FPath} (h : (runSingleIo env a f fs p).1 q ≠ fs q) :
    q = outputPath a p ∧ ∃ c b, fs p = some c ∧ Output env a c b := by
  rcases tried env a f fs p with (e | e) | ⟨e, -⟩ | ⟨c, b, hc, ho, ⟨-, e⟩ | ⟨-, t, -, -, e⟩⟩ <;> rw [e] at h
  · exact absurd rfl h
  · exact absurd rfl h
  · exact absurd rfl h
  · exact ⟨writeAll_only h, c, b, hc, ho⟩
  · exact ⟨writeWbro_only h, c, b, hc, ho⟩

/-- The outputs an undisturbed run on a directory writes, the files holding what they hold in `fs`. -/
def Reached (env : Env) (a : RunArgs) (fs : Fs) (q : FPath) : List (FPath × Bool) → Prop
  | [] => False
  | (p, isFile) :: rest =>
    if isFile then ((q = outputPath a p ∧ ∃ c b, fs p = some c ∧ Output env a c b) ∨ ((runSingle env a fs p).2 = .ok ∧ Reached env a fs q rest))
    else Reached env a fs q rest

/-- Two undisturbed runs on a directory, from files that differ only in outputs that will be written. -/
theorem runDir_same {env : Env} {a : RunArgs} {fs0 : Fs} : ∀ {entries : List (FPath × Bool)} {fs g : Fs},
    (∀ p ∈ regularFiles entries, ∀ p' ∈ regularFiles entries, outputPath a p ≠ p') →
    (∀ p ∈ regularFiles entries, fs p = fs0 p) → (∀ p ∈ regularFiles entries, g p = fs0 p) → (∀ q, g q ≠ fs q → Reached env a fs0 q entries) →
    runDir env a g entries = runDir env a fs entries
  | [], fs, g, _, _, _, hd => by
    have : g = fs := by funext q; by_contra h; exact hd q h
    rw [this]
  | (p, false) :: rest, fs, g, hs, h1, h2, hd => runDir_same (entries := rest) hs h1 h2 hd
  | (p, true) :: rest, fs, g, hs, h1, h2, hd => by
    have hm : p ∈ regularFiles ((p, true) :: rest) := by simp [regularFiles]
    have hr : ∀ x ∈ regularFiles rest, x ∈ regularFiles ((p, true) :: rest) := by
      intro x hx
      rw [show regularFiles ((p, true) :: rest) = p :: regularFiles rest from rfl]
      exact List.mem_cons_of_mem _ hx
    rw [runDir, runDir, if_pos rfl, if_pos rfl]
    rcases runSingle_form env a fs0 p with ⟨c, b, hc, ho, hw⟩ | ⟨hno, e, hw⟩
    · rw [hw fs (h1 p hm), hw g (h2 p hm)]
      dsimp only
      have hoth : ∀ (s : Fs), ∀ x ∈ regularFiles rest, (s.write (outputPath a p) b) x = s x := fun s x hx => if_neg (hs p hm x (hr x hx)).symm
      refine runDir_same (fun x hx y hy => hs x (hr x hx) y (hr y hy)) (fun x hx => (hoth _ x hx).trans (h1 x (hr x hx)))
        (fun x hx => (hoth _ x hx).trans (h2 x (hr x hx))) fun q hq => ?_
      by_cases hqo : q = outputPath a p
      · subst hqo; rw [Fs.write_same, Fs.write_same] at hq; exact absurd rfl hq
      · have hq' : g q ≠ fs q := by
          intro e; apply hq
          unfold Fs.write
          rw [if_neg hqo, if_neg hqo, e]
        rcases hd q hq' with ⟨e, -⟩ | ⟨-, h⟩
        · exact absurd e hqo
        · exact h
    · have hgf : e ≠ .ok → g = fs := by
        intro he
        funext q
        by_contra h
        rcases hd q h with ⟨-, c, b, hc, ho⟩ | ⟨h', -⟩
        · exact hno c b hc ho
        · rw [hw fs0 rfl] at h'; exact he h'
      rw [hw fs (h1 p hm), hw g (h2 p hm)]
      cases e with
      | ok =>
        dsimp only
        refine runDir_same (fun x hx y hy => hs x (hr x hx) y (hr y hy)) (fun x hx => h1 x (hr x hx)) (fun x hx => h2 x (hr x hx)) fun q hq => ?_
        rcases hd q hq with ⟨-, c, b, hc, ho⟩ | ⟨-, h⟩
        · exact absurd ho (hno c b hc)
        · exact h
      | err => rw [hgf (by simp)]
      | panicked => rw [hgf (by simp)]

/-- A disturbed run on a directory changes nothing but outputs that the undisturbed run would write. -/
theorem runDirIo_changes {env : Env} {a : RunArgs} {F : Nat → Fault} {cut : Bool} {fs0 : Fs} {q : FPath} : ∀ {entries : List (FPath × Bool)} {k : Nat} {fs : Fs},
    (∀ p ∈ regularFiles entries, ∀ p' ∈ regularFiles entries, outputPath a p ≠ p') → (∀ p ∈ regularFiles entries, fs p = fs0 p) →
    (runDirIo env a F cut k fs entries).1 q ≠ fs q → Reached env a fs0 q entries
  | [], k, fs, _, _, h => absurd rfl h
  | (p, false) :: rest, k, fs, hs, h1, h => runDirIo_changes (entries := rest) (k := k) hs h1 h
  | (p, true) :: rest, k, fs, hs, h1, h => by
    have hm : p ∈ regularFiles ((p, true) :: rest) := by simp [regularFiles]
    have hr : ∀ x ∈ regularFiles rest, x ∈ regularFiles ((p, true) :: rest) := by
      intro x hx
      rw [show regularFiles ((p, true) :: rest) = p :: regularFiles rest from rfl]
      exact List.mem_cons_of_mem _ hx
    have hsr : ∀ x ∈ regularFiles rest, ∀ y ∈ regularFiles rest, outputPath a x ≠ y := fun x hx y hy => hs x (hr x hx) y (hr y hy)
    -- one attempt
    have step : ∀ {f : Fault} {s s1 : Fs} {e : Ended}, (∀ x ∈ regularFiles ((p, true) :: rest), s x = fs0 x) → runSingleIo env a f s p = (s1, e) →
        (∀ x ∈ regularFiles ((p, true) :: rest), s1 x = fs0 x) ∧ (s1 q ≠ s q → q = outputPath a p ∧ ∃ c b, fs0 p = some c ∧ Output env a c b) ∧
        (e = .ok → (runSingle env a fs0 p).2 = .ok) := by
      intro f s s1 e hs0 hrun
      refine ⟨fun x hx => ?_, fun hq => ?_, fun he => ?_⟩
      · have := (attempt_spec env a f s s1 e p hrun).1 x (hs p hm x hx).symm
        rw [this]; exact hs0 x hx
      · have := attempt_changes (env := env) (a := a) (f := f) (fs := s) (p := p) (q := q) (by rw [hrun]; exact hq)
        rw [hs0 p hm] at this; exact this
      · subst he
        rcases runSingle_form env a fs0 p with ⟨c, b, hc, ho, hw⟩ | ⟨hno, e, hw⟩
        · rw [hw fs0 rfl]
        · rcases tried env a f s p with (h' | h') | ⟨-, h'⟩ | ⟨c, b, hc, ho, -⟩
          · rw [hrun] at h'; cases h'
          · rw [hrun] at h'; cases h'
          · rw [hw s (hs0 p hm)] at h'; rw [hw fs0 rfl]; exact congrArg Prod.snd h'
          · exact absurd ho (hno c b ((hs0 p hm).symm.trans hc))
    show (_ ∨ _)
    rcases hrun : runDirIo env a F cut k fs ((p, true) :: rest) with ⟨fs', e⟩
    rw [hrun] at h
    have hd : ∀ {s : Fs} {k' : Nat}, (∀ x ∈ regularFiles ((p, true) :: rest), s x = fs0 x) → (runSingle env a fs0 p).2 = .ok →
        (s q ≠ fs q → q = outputPath a p ∧ ∃ c b, fs0 p = some c ∧ Output env a c b) → runDirIo env a F cut k' s rest = (fs', e) →
        (q = outputPath a p ∧ ∃ c b, fs0 p = some c ∧ Output env a c b) ∨ ((runSingle env a fs0 p).2 = .ok ∧ Reached env a fs0 q rest) := by
      intro s k' hs0 hok hch hrest
      by_cases hq : s q = fs q
      · refine .inr ⟨hok, runDirIo_changes (F := F) (cut := cut) (k := k') hsr (fun x hx => hs0 x (hr x hx)) ?_⟩
        rw [hrest]; rw [hq]; exact h
      · exact .inl (hch hq)
    rcases runDirIo_cons hrun with ⟨fs1, e1, e2⟩ | ⟨e1, -⟩ | ⟨fs1, fs2, e1, e2, e3⟩ | ⟨fs1, e1, e2, -⟩
    · obtain ⟨a1, a2, a3⟩ := step h1 e1
      exact hd a1 (a3 rfl) a2 e2
    · exact .inl ((step h1 e1).2.1 h)
    · obtain ⟨a1, a2, a3⟩ := step h1 e1
      obtain ⟨b1, b2, b3⟩ := step a1 e2
      refine hd b1 (b3 rfl) (fun hq => ?_) e3
      by_cases hq1 : fs2 q = fs1 q
      · exact a2 (by rw [← hq1]; exact hq)
      · exact b2 hq1
    · obtain ⟨a1, a2, -⟩ := step h1 e1
      obtain ⟨b1, b2, -⟩ := step a1 e2
      by_cases hq1 : fs' q = fs1 q
      · exact .inl (a2 (by rw [← hq1]; exact h))
      · exact .inl (b2 hq1)

/-- The files after disturbed runs of atsc, one after the other: `F k` is what happens at the `k`-th attempt at a file, the Boolean says that listing the directory
breaks off. -/
def afterRuns (env : Env) (a : RunArgs) (i : Input) (fs : Fs) (runs : List ((Nat → Fault) × Bool)) : Fs :=
  runs.foldl (fun s r => (runMainIo env a r.1 r.2 s i).1) fs

/-- **C117, one file.** After any number of runs of atsc on a file, whatever file operations fail in them, an undisturbed run ends as if they had never been,
with the same status and the same files - provided the output is another file than the input. -/
theorem C117_file (env : Env) (a : RunArgs) (fs : Fs) (path : FPath) (hp : path ≠ outputPath a path) (runs : List ((Nat → Fault) × Bool)) :
    runMain env a (afterRuns env a (.file path) fs runs) (.file path) = runMain env a fs (.file path) := by
  have key : ∀ (runs : List ((Nat → Fault) × Bool)) (g : Fs), g path = fs path →
      (∀ q, g q ≠ fs q → q = outputPath a path ∧ ∃ c b, fs path = some c ∧ Output env a c b) →
      (afterRuns env a (.file path) g runs) path = fs path ∧
      ∀ q, (afterRuns env a (.file path) g runs) q ≠ fs q → q = outputPath a path ∧ ∃ c b, fs path = some c ∧ Output env a c b := by
    intro runs
    induction runs with
    | nil => intro g h1 h2; exact ⟨h1, h2⟩
    | cons r rs ih =>
      intro g h1 h2
      have e : (runMainIo env a r.1 r.2 g (.file path)).1 = (runSingleIo env a (r.1 0) g path).1 := rfl
      refine ih _ ?_ fun q hq => ?_
      · dsimp only
        rw [e, (attempt_spec env a (r.1 0) g (runSingleIo env a (r.1 0) g path).1 (runSingleIo env a (r.1 0) g path).2 path rfl).1 path hp, h1]
      · dsimp only at hq; rw [e] at hq
        by_cases h : (runSingleIo env a (r.1 0) g path).1 q = g q
        · exact h2 q (by rw [← h]; exact hq)
        · have := attempt_changes h
          rw [h1] at this; exact this
  obtain ⟨h1, h2⟩ := key runs fs rfl (fun q h => absurd rfl h)
  have : runSingle env a (afterRuns env a (.file path) fs runs) path = runSingle env a fs path := by
    generalize afterRuns env a (.file path) fs runs = g at h1 h2 ⊢
    rcases runSingle_form env a fs path with ⟨c, b, hc, ho, hw⟩ | ⟨hno, e, hw⟩
    · rw [hw g h1, hw fs rfl]
      congr 1
      funext q
      unfold Fs.write
      by_cases hq : q = outputPath a path
      · rw [if_pos hq, if_pos hq]
      · rw [if_neg hq, if_neg hq]
        by_contra h
        exact hq (h2 q h).1
    · have : g = fs := by
        funext q
        by_contra h
        obtain ⟨-, c, b, hc, ho⟩ := h2 q h
        exact hno c b hc ho
      rw [this]
  show ((runSingle env a _ path).1, (runSingle env a _ path).2.status) = ((runSingle env a fs path).1, (runSingle env a fs path).2.status)
  rw [this]

/-- **C117, directories.** The same for runs on a directory over the same listing, provided no file of it is the output of one of its files. -/
theorem C117_directory (env : Env) (a : RunArgs) (fs : Fs) (entries : List (FPath × Bool))
    (hs : ∀ p ∈ regularFiles entries, ∀ p' ∈ regularFiles entries, outputPath a p ≠ p') (runs : List ((Nat → Fault) × Bool)) :
    runMain env a (afterRuns env a (.dir entries) fs runs) (.dir entries) = runMain env a fs (.dir entries) := by
  have key : ∀ (runs : List ((Nat → Fault) × Bool)) (g : Fs), (∀ p ∈ regularFiles entries, g p = fs p) → (∀ q, g q ≠ fs q → Reached env a fs q entries) →
      (∀ p ∈ regularFiles entries, (afterRuns env a (.dir entries) g runs) p = fs p) ∧
      ∀ q, (afterRuns env a (.dir entries) g runs) q ≠ fs q → Reached env a fs q entries := by
    intro runs
    induction runs with
    | nil => intro g h1 h2; exact ⟨h1, h2⟩
    | cons r rs ih =>
      intro g h1 h2
      have e : (runMainIo env a r.1 r.2 g (.dir entries)).1 = (runDirIo env a r.1 r.2 0 g entries).1 := rfl
      refine ih _ (fun p hp => ?_) fun q hq => ?_
      · rw [← h1 p hp]
        exact C100_directory_effects env a r.1 r.2 g entries p (fun p' hp' => (hs p' hp' p hp).symm)
      · dsimp only at hq; rw [e] at hq
        by_cases h : (runDirIo env a r.1 r.2 0 g entries).1 q = g q
        · exact h2 q (by rw [← h]; exact hq)
        · exact runDirIo_changes hs h1 h
  obtain ⟨h1, h2⟩ := key runs fs (fun _ _ => rfl) (fun q h => absurd rfl h)
  have := runDir_same hs (fun _ _ => rfl) h1 h2
  show ((runDir env a _ entries).1, (runDir env a _ entries).2.status) = ((runDir env a fs entries).1, (runDir env a fs entries).2.status)
  rw [this]

/-- **C117 refuted when a file is its own output**: the failed run has emptied the input, and running again ends with status 1 where the undisturbed run would
have succeeded. -/
theorem C117_refuted_self (env : Env) (a : RunArgs) (hu : a.uncompress = false) (hcsv : a.csv = false) (fs : Fs) (path : FPath) (hp : path = outputPath a path) (c b : Bytes)
    (hc : fs path = some c) (ho : Output env a c b) (hb : b ≠ []) :
    (runMain env a fs (.file path)).2 = 0 ∧
      (runMain env a (afterRuns env a (.file path) fs [(fun _ => { Fault.calm with stop := some 0 }, false)]) (.file path)).2 = 1 := by
  constructor
  · rw [(C88_exact env a fs _ path).2 ⟨c, hc, .inl ⟨b, ho, rfl⟩⟩]
  · rw [C88_status]
    intro x hx
    have : afterRuns env a (.file path) fs [(fun _ => { Fault.calm with stop := some 0 }, false)] = fs.write path [] := by
      show (runMainIo env a (fun _ => { Fault.calm with stop := some 0 }) false fs (.file path)).1 = _
      rw [C100_refuted_destroys env a hu fs path c b hc ho hb, ← hp]
    rw [this, Fs.write_same] at hx
    obtain rfl := Option.some.inj hx
    rw [if_neg (by simp [hu]), if_neg (by simp [hcsv])]
    exact .inl (by simp)

/-- A WBRO file called `x.bro`, which `atsc x.bro` replaces by its compressed form: a full disk loses it. -/
example : (let fs : Fs := fun q => if q = ⟨"x", "bro"⟩ then demoFs ⟨"x", "wbro"⟩ else none
    decide ((runMain demoEnv demoArgs fs (.file ⟨"x", "bro"⟩)).2 = 0) &&
    decide ((runMain demoEnv demoArgs (afterRuns demoEnv demoArgs (.file ⟨"x", "bro"⟩) fs [(fun _ => { Fault.calm with stop := some 0 }, false)]) (.file ⟨"x", "bro"⟩)).2 = 1)) = true := by
  decide +kernel

/-- `C117_file` on three failed runs - the disk full after 5 bytes, the output not creatable, the input not readable: the first left a beginning of the output,
the run after them all of it. -/
example : (let g := afterRuns demoEnv demoArgs (.file ⟨"x", "wbro"⟩) demoFs [(fun _ => { Fault.calm with stop := some 5 }, false), (fun _ => { Fault.calm with noCreate := true }, false), (fun _ => { Fault.calm with read := .refused }, false)]
    decide (g ⟨"x", "bro"⟩ = some [66, 82, 82, 79, 1]) && decide ((runMain demoEnv demoArgs g (.file ⟨"x", "wbro"⟩)).2 = 0) &&
    decide ((runMain demoEnv demoArgs g (.file ⟨"x", "wbro"⟩)).1 ⟨"x", "bro"⟩ = (runMain demoEnv demoArgs demoFs (.file ⟨"x", "wbro"⟩)).1 ⟨"x", "bro"⟩) &&
    decide ((g ⟨"x", "bro"⟩) ≠ (runMain demoEnv demoArgs demoFs (.file ⟨"x", "wbro"⟩)).1 ⟨"x", "bro"⟩) &&
    decide ((⟨"x", "wbro"⟩ : FPath) ≠ outputPath demoArgs ⟨"x", "wbro"⟩)) = true := by decide +kernel

/-- `C117_directory`: two files, the disk full at both attempts at the second one. -/
example : (let fs : Fs := fun q => if q = ⟨"y", "wbro"⟩ then demoFs ⟨"x", "wbro"⟩ else demoFs q
    let i : Input := .dir [(⟨"x", "wbro"⟩, true), (⟨"d", ""⟩, false), (⟨"y", "wbro"⟩, true)]
    let g := afterRuns demoEnv demoArgs i fs [(fun k => if k = 0 then .calm else { Fault.calm with stop := some 5 }, false)]
    decide (g ⟨"y", "bro"⟩ = some [66, 82, 82, 79, 1]) && decide ((runMain demoEnv demoArgs g i).2 = 0) &&
    decide ((runMain demoEnv demoArgs g i).1 ⟨"y", "bro"⟩ = (runMain demoEnv demoArgs fs i).1 ⟨"y", "bro"⟩)) = true ∧
    ∀ p ∈ regularFiles [(⟨"x", "wbro"⟩, true), (⟨"d", ""⟩, false), (⟨"y", "wbro"⟩, true)], ∀ p' ∈ regularFiles [(⟨"x", "wbro"⟩, true), (⟨"d", ""⟩, false), (⟨"y", "wbro"⟩, true)],
      outputPath demoArgs p ≠ p' := by decide +kernel

/-! ### csv-compressor -/

/-- The files csv-compressor writes. -/
def csvOutputs (a : CsvArgs) (input : FPath) : List FPath :=
  if a.uncompress then [(a.base input).withExt "wbro", (a.base input).withExt "csv"]
  else (if a.outputWavbrro then [(a.base input).withExt "wavbro"] else []) ++ (if a.outputVsri then [(a.base input).withExt "vsri"] else []) ++
    (if a.noCompression then [] else [(a.base input).withExt "bro"])

def Fs.writeList (fs : Fs) (ws : List (FPath × Bytes)) : Fs := ws.foldl (fun s w => s.write w.1 w.2) fs

theorem Fs.writeList_same {ws : List (FPath × Bytes)} : ∀ {fs g : Fs}, (∀ q, g q ≠ fs q → q ∈ ws.map (·.1)) → g.writeList ws = fs.writeList ws := by
  induction ws with
  | nil => intro fs g h; show g = fs; funext q; by_contra hq; exact absurd (h q hq) (by simp)
  | cons w ws ih =>
    intro fs g h
    refine ih (fs := fs.write w.1 w.2) (g := g.write w.1 w.2) fun q hq => ?_
    by_cases hw : q = w.1
    · rw [hw, Fs.write_same, Fs.write_same] at hq; exact absurd rfl hq
    · unfold Fs.write at hq
      rw [if_neg hw, if_neg hw] at hq
      have := h q hq
      rw [List.map_cons, List.mem_cons] at this
      exact this.resolve_left hw

theorem Fs.writeList_append (fs : Fs) (ws vs : List (FPath × Bytes)) : fs.writeList (ws ++ vs) = (fs.writeList ws).writeList vs := List.foldl_append

theorem csvFlushWavbrro_form (a : CsvArgs) (base : FPath) (m : Metric) :
    ∃ (ws : List (FPath × Bytes)) (r : Except Panic Unit), (∀ w ∈ ws, w.1 = base.withExt "wavbro" ∧ a.outputWavbrro = true) ∧
      (∀ g, csvFlushWavbrro a base m g = (g.writeList ws, r)) ∧ (∀ f g q, (csvFlushWavbrroIo a f base m g).1 q ≠ g q → q ∈ ws.map (·.1)) ∧
      (∀ f g, (csvFlushWavbrroIo a f base m g).2 = .ok → r = .ok ()) ∧ (r = .ok () → a.outputWavbrro = true → base.withExt "wavbro" ∈ ws.map (·.1)) := by
  unfold csvFlushWavbrroIo csvFlushWavbrro
  by_cases hw : a.outputWavbrro = true
  · cases ht : m.wbro.toBytes with
    | error e =>
      refine ⟨[], .error e, by simp, fun g => ?_, fun f g q h => ?_, fun f g h => ?_, fun h => by cases h⟩
      · rw [if_pos hw, toFile_bytes, ht]; rfl
      · rw [if_pos hw] at h; exact absurd rfl h
      · rw [if_pos hw] at h; cases h
    | ok t =>
      refine ⟨[(base.withExt "wavbro", WavBrro.wholeFile t)], .ok (), by simp [hw], fun g => ?_, fun f g q h => ?_, fun f g h => rfl, fun _ _ => by simp⟩
      · rw [if_pos hw, toFile_bytes, ht]; rfl
      · rw [if_pos hw] at h; simpa using writeWbro_only h
  · refine ⟨[], .ok (), by simp, fun g => ?_, fun f g q h => ?_, fun f g h => rfl, fun _ h => absurd h hw⟩
    · rw [if_neg hw]; rfl
    · rw [if_neg hw] at h; exact absurd rfl h

theorem csvFlushVsri_form (a : CsvArgs) (base : FPath) (m : Metric) :
    ∃ (ws : List (FPath × Bytes)), (∀ w ∈ ws, w.1 = base.withExt "vsri" ∧ a.outputVsri = true) ∧
      (∀ g, csvFlushVsri a base m g = g.writeList ws) ∧ (∀ f g q, (csvFlushVsriIo a f base m g).1 q ≠ g q → q ∈ ws.map (·.1)) ∧
      (a.outputVsri = true → base.withExt "vsri" ∈ ws.map (·.1)) := by
  unfold csvFlushVsriIo csvFlushVsri
  by_cases hw : a.outputVsri = true
  · refine ⟨[(base.withExt "vsri", textBytes m.vsri.flush)], by simp [hw], fun g => ?_, fun f g q h => ?_, fun _ => by simp⟩
    · rw [if_pos hw]; rfl
    · rw [if_pos hw] at h; simpa using writeAll_only h
  · refine ⟨[], by simp, fun g => ?_, fun f g q h => ?_, fun h => absurd h hw⟩
    · rw [if_neg hw]; rfl
    · rw [if_neg hw] at h; exact absurd rfl h

theorem csvFlushBro_form (env : CsvEnv) (a : CsvArgs) (base : FPath) (m : Metric) :
    ∃ (ws : List (FPath × Bytes)) (r : Except Panic Unit), (∀ w ∈ ws, w.1 = base.withExt "bro" ∧ a.noCompression = false) ∧
      (∀ g, csvFlushBro env a base m g = (g.writeList ws, r)) ∧ (∀ f g q, (csvFlushBroIo env a f base m g).1 q ≠ g q → q ∈ ws.map (·.1)) ∧
      (r = .ok () → a.noCompression = false → base.withExt "bro" ∈ ws.map (·.1)) := by
  unfold csvFlushBroIo csvFlushBro
  by_cases hw : a.noCompression = true
  · refine ⟨[], .ok (), by simp, fun g => ?_, fun f g q h => ?_, fun _ h => by rw [hw] at h; cases h⟩
    · rw [if_pos hw]; rfl
    · rw [if_pos hw] at h; exact absurd rfl h
  · cases hb : compressData env.E env.p m.wbro.getSamples a.comp with
    | error e =>
      refine ⟨[], .error e, by simp, fun g => ?_, fun f g q h => ?_, fun h => by cases h⟩
      · rw [if_neg hw]; rfl
      · rw [if_neg hw] at h; exact absurd rfl h
    | ok bs =>
      refine ⟨[(base.withExt "bro", bs)], .ok (), by simpa using hw, fun g => ?_, fun f g q h => ?_, fun _ _ => by simp⟩
      · rw [if_neg hw]; rfl
      · rw [if_neg hw] at h; simpa using writeAll_only h

theorem csv_form_aux (env : CsvEnv) (a : CsvArgs) (o x : Option Bytes) (input : FPath) :
    ∃ (ws : List (FPath × Bytes)) (r : Except Panic Unit), (∀ w ∈ ws, w.1 ∈ csvOutputs a input) ∧
      (∀ g : Fs, g input = o → (a.uncompress = true → g (input.withExt "vsri") = x) → csvRun env a g input = (g.writeList ws, r)) ∧
      (∀ f (g : Fs) q, g input = o → (a.uncompress = true → g (input.withExt "vsri") = x) →
        (csvRunIo env a f g input).1 q ≠ g q → q ∈ ws.map (·.1)) ∧
      (r = .ok () → (∀ q ∈ csvOutputs a input, q ∈ ws.map (·.1)) ∨ (a.uncompress = true ∧ ∃ c, o = some c ∧ broRead c = .notBro)) := by
  have stop : ∀ (r : Except Panic Unit), (r = .ok () → a.uncompress = true ∧ ∃ c, o = some c ∧ broRead c = .notBro) → (∀ g : Fs, g input = o → (a.uncompress = true → g (input.withExt "vsri") = x) →
      csvRun env a g input = (g, r) ∧ ∀ f, (csvRunIo env a f g input).1 = g) → ∃ (ws : List (FPath × Bytes)) (r : Except Panic Unit), (∀ w ∈ ws, w.1 ∈ csvOutputs a input) ∧
      (∀ g : Fs, g input = o → (a.uncompress = true → g (input.withExt "vsri") = x) → csvRun env a g input = (g.writeList ws, r)) ∧
      (∀ f (g : Fs) q, g input = o → (a.uncompress = true → g (input.withExt "vsri") = x) →
        (csvRunIo env a f g input).1 q ≠ g q → q ∈ ws.map (·.1)) ∧
      (r = .ok () → (∀ q ∈ csvOutputs a input, q ∈ ws.map (·.1)) ∨ (a.uncompress = true ∧ ∃ c, o = some c ∧ broRead c = .notBro)) := by
    intro r hr h
    exact ⟨[], r, by simp, fun g h1 h2 => (h g h1 h2).1, fun f g q h1 h2 h3 => absurd (congrFun ((h g h1 h2).2 f) q) h3, fun h => .inr (hr h)⟩
  by_cases hu : a.uncompress = true
  · have e1 : ∀ g, csvRun env a g input = csvRunUncompress env a g input := fun g => if_pos hu
    have e2 : ∀ f g, csvRunIo env a f g input = csvUncompressIo env a f g input := fun f g => if_pos hu
    cases o with
    | none =>
      refine stop (.error .unwrap) (by simp) fun g h1 _ => ⟨?_, fun f => ?_⟩
      · rw [e1, csvRunUncompress, h1]
      · rw [e2, csvUncompressIo, h1]
    | some c =>
      cases hb : broRead c with
      | eof =>
        refine stop (.error .unwrap) (by simp) fun g h1 _ => ⟨?_, fun f => ?_⟩
        · rw [e1, csvRunUncompress, h1]; dsimp only; rw [hb]
        · rw [e2, csvUncompressIo, h1]; dsimp only; rw [hb]; split <;> rfl
      | notBro =>
        refine stop (.ok ()) (fun _ => ⟨hu, c, rfl, hb⟩) fun g h1 _ => ⟨?_, fun f => ?_⟩
        · rw [e1, csvRunUncompress, h1]; dsimp only; rw [hb]
        · rw [e2, csvUncompressIo, h1]; dsimp only; rw [hb]; split <;> rfl
      | bytes bs =>
        cases hd : decompressData env.E bs with
        | error e =>
          refine stop (.error e) (by simp) fun g h1 _ => ⟨?_, fun f => ?_⟩
          · rw [e1, csvRunUncompress, h1]; dsimp only; rw [hb]; dsimp only; rw [hd]
          · rw [e2, csvUncompressIo, h1]; dsimp only; rw [hb]; dsimp only; rw [hd]; split <;> rfl
        | ok d =>
          cases hw : WavBrro.addAll env.p .new d with
          | error e =>
            refine stop (.error e) (by simp) fun g h1 _ => ⟨?_, fun f => ?_⟩
            · rw [e1, csvRunUncompress, h1]; dsimp only; rw [hb]; dsimp only; rw [hd]; dsimp only; rw [hw]
            · rw [e2, csvUncompressIo, h1]; dsimp only; rw [hb]; dsimp only; rw [hd]; dsimp only; rw [hw]; split <;> rfl
          | ok w =>
            have f1 : ∀ g : Fs, g input = some c → csvRunUncompress env a g input = (match g (input.withExt "vsri") with
                | none => (g, .error .unwrap)
                | some c =>
                  match Vsri.loadOrPanic c with
                  | .error e => (g, .error e)
                  | .ok v =>
                    match WavBrro.toFileWithData d with
                    | .error e => (g, .error e)
                    | .ok f =>
                      let fs1 := g.write ((a.base input).withExt "wbro") f
                      match Metric.getSamples env.p ⟨w, v⟩ with
                      | .error e => (fs1, .error e)
                      | .ok ss => (fs1.write ((a.base input).withExt "csv") (env.writeCsv ss), .ok ())) := by
              intro g h1
              rw [csvRunUncompress, h1]; dsimp only; rw [hb]; dsimp only; rw [hd]; dsimp only; rw [hw]; rfl
            have f2 : ∀ f (g : Fs), g input = some c → csvUncompressIo env a f g input = (if f.input = false then (g, .panicked) else match g (input.withExt "vsri") with
                | none => (g, .panicked)
                | some c =>
                  if f.index = false then (g, .panicked)
                  else match Vsri.loadOrPanic c with
                  | .error _ => (g, .panicked)
                  | .ok v =>
                    match (WavBrro.fromSlice d).toBytes with
                    | .error _ => (g, .panicked)
                    | .ok b =>
                      match writeWbro f.wbro g ((a.base input).withExt "wbro") b with
                      | (fs1, .ok) =>
                        match Metric.getSamples env.p ⟨w, v⟩ with
                        | .error _ => (fs1, .panicked)
                        | .ok ss => writeCsvIo f.csv fs1 ((a.base input).withExt "csv") (env.writeCsv ss)
                      | r => r) := by
              intro f g h1
              rw [csvUncompressIo, h1]; dsimp only; rw [hb]; dsimp only; rw [hd]; dsimp only; rw [hw]; rfl
            cases x with
            | none =>
              refine stop (.error .unwrap) (by simp) fun g h1 h2 => ⟨?_, fun f => ?_⟩
              · rw [e1, f1 g (h1), h2 hu]
              · rw [e2, f2 f g (h1), h2 hu]; split <;> rfl
            | some x =>
              cases hv : Vsri.loadOrPanic x with
              | error e =>
                refine stop (.error e) (by simp) fun g h1 h2 => ⟨?_, fun f => ?_⟩
                · rw [e1, f1 g (h1), h2 hu]; dsimp only; rw [hv]
                · rw [e2, f2 f g (h1), h2 hu]; dsimp only; rw [hv]
                  split
                  · rfl
                  · split <;> rfl
              | ok v =>
                cases ht : (WavBrro.fromSlice d).toBytes with
                | error e =>
                  refine stop (.error e) (by simp) fun g h1 h2 => ⟨?_, fun f => ?_⟩
                  · rw [e1, f1 g (h1), h2 hu]; dsimp only [WavBrro.toFileWithData]; rw [hv]; dsimp only; rw [toFile_bytes, ht]
                  · rw [e2, f2 f g (h1), h2 hu]; dsimp only; rw [hv]; dsimp only; rw [ht]
                    split
                    · rfl
                    · split <;> rfl
                | ok t =>
                  have hout : csvOutputs a input = [(a.base input).withExt "wbro", (a.base input).withExt "csv"] := if_pos hu
                  cases hs : Metric.getSamples env.p ⟨w, v⟩ with
                  | error e =>
                    refine ⟨[((a.base input).withExt "wbro", WavBrro.wholeFile t)], .error e, by rw [hout]; simp, fun g h1 h2 => ?_, fun f g q h1 h2 h3 => ?_, fun h => by cases h⟩
                    · rw [e1, f1 g (h1), h2 hu]; dsimp only [WavBrro.toFileWithData]; rw [hv]; dsimp only; rw [toFile_bytes, ht]; dsimp only; rw [hs]; rfl
                    · rw [e2, f2 f g (h1), h2 hu] at h3; dsimp only at h3; rw [hv] at h3; dsimp only at h3; rw [ht] at h3; dsimp only at h3; rw [hs] at h3
                      split at h3
                      · exact absurd rfl h3
                      · split at h3
                        · exact absurd rfl h3
                        · suffices q = (a.base input).withExt "wbro" by simpa using this
                          apply writeWbro_only (f := f.wbro) (fs := g) (t := t)
                          rcases hww : writeWbro f.wbro g ((a.base input).withExt "wbro") t with ⟨fs1, e1⟩
                          rw [hww] at h3
                          cases e1 <;> exact h3
                  | ok ss =>
                    refine ⟨[((a.base input).withExt "wbro", WavBrro.wholeFile t), ((a.base input).withExt "csv", env.writeCsv ss)], .ok (),
                      by rw [hout]; simp, fun g h1 h2 => ?_, fun f g q h1 h2 h3 => ?_, fun _ => .inl (by rw [hout]; simp)⟩
                    · rw [e1, f1 g (h1), h2 hu]; dsimp only [WavBrro.toFileWithData]; rw [hv]; dsimp only; rw [toFile_bytes, ht]; dsimp only; rw [hs]; rfl
                    · rw [e2, f2 f g (h1), h2 hu] at h3; dsimp only at h3; rw [hv] at h3; dsimp only at h3; rw [ht] at h3; dsimp only at h3; rw [hs] at h3
                      split at h3
                      · exact absurd rfl h3
                      · split at h3
                        · exact absurd rfl h3
                        · suffices q = (a.base input).withExt "wbro" ∨ q = (a.base input).withExt "csv" by simpa using this
                          rcases hww : writeWbro f.wbro g ((a.base input).withExt "wbro") t with ⟨fs1, e1⟩
                          have hone : fs1 q ≠ g q → q = (a.base input).withExt "wbro" := by
                            intro h
                            apply writeWbro_only (f := f.wbro) (fs := g) (t := t)
                            rw [hww]; exact h
                          rw [hww] at h3
                          cases e1 with
                          | err => exact .inl (hone h3)
                          | panicked => exact .inl (hone h3)
                          | ok =>
                            dsimp only at h3
                            by_cases h : fs1 q = g q
                            · rw [← h] at h3; exact .inr (writeCsvIo_only h3)
                            · exact .inl (hone h)
  · have e1 : ∀ g, csvRun env a g input = csvRunCompress env a g input := fun g => if_neg hu
    have e2 : ∀ f g, csvRunIo env a f g input = csvCompressIo env a f g input := fun f g => if_neg hu
    cases o with
    | none =>
      refine stop (.error .unwrap) (by simp) fun g h1 _ => ⟨?_, fun f => ?_⟩
      · rw [e1, csvRunCompress, h1]
      · rw [e2, csvCompressIo, h1]
    | some c =>
      cases hr : env.readCsv c with
      | none =>
        refine stop (.error .unwrap) (by simp) fun g h1 _ => ⟨?_, fun f => ?_⟩
        · rw [e1, csvRunCompress, h1]; dsimp only; rw [hr]
        · rw [e2, csvCompressIo, h1]; dsimp only; rw [hr]; split <;> rfl
      | some ss =>
        cases hm : Metric.fromSamples env.p env.valid ss with
        | error e =>
          refine stop (.error e) (by simp) fun g h1 _ => ⟨?_, fun f => ?_⟩
          · rw [e1, csvRunCompress, h1]; dsimp only; rw [hr]; dsimp only; rw [hm]
          · rw [e2, csvCompressIo, h1]; dsimp only; rw [hr]; dsimp only; rw [hm]; split <;> rfl
        | ok y =>
          cases y with
          | error e =>
            refine stop (.error .unwrap) (by simp) fun g h1 _ => ⟨?_, fun f => ?_⟩
            · rw [e1, csvRunCompress, h1]; dsimp only; rw [hr]; dsimp only; rw [hm]
            · rw [e2, csvCompressIo, h1]; dsimp only; rw [hr]; dsimp only; rw [hm]; split <;> rfl
          | ok m =>
            obtain ⟨ws, r, w1, w2, w3, w4, w5⟩ := csvFlushWavbrro_form a (a.base input) m
            obtain ⟨vs, v1, v2, v3, v4⟩ := csvFlushVsri_form a (a.base input) m
            obtain ⟨bs, r2, b1, b2, b3, b4⟩ := csvFlushBro_form env a (a.base input) m
            have hout : csvOutputs a input = (if a.outputWavbrro then [(a.base input).withExt "wavbro"] else []) ++
                (if a.outputVsri then [(a.base input).withExt "vsri"] else []) ++ (if a.noCompression then [] else [(a.base input).withExt "bro"]) := if_neg hu
            have mw : ∀ w ∈ ws, w.1 ∈ csvOutputs a input := by intro w hw; rw [hout, (w1 w hw).1, (w1 w hw).2]; simp
            have mv : ∀ w ∈ vs, w.1 ∈ csvOutputs a input := by intro w hw; rw [hout, (v1 w hw).1, (v1 w hw).2]; simp
            have mb : ∀ w ∈ bs, w.1 ∈ csvOutputs a input := by intro w hw; rw [hout, (b1 w hw).1, (b1 w hw).2]; simp
            have f1 : ∀ g : Fs, g input = some c → csvRunCompress env a g input = (match r with
                | .error e => (g.writeList ws, .error e)
                | .ok () => (g.writeList (ws ++ vs ++ bs), r2)) := by
              intro g h1
              rw [csvRunCompress, h1]; dsimp only; rw [hr]; dsimp only; rw [hm]; dsimp only; rw [w2]
              cases r with
              | error e => rfl
              | ok u => dsimp only; rw [v2, b2, Fs.writeList_append, Fs.writeList_append]
            have f2 : ∀ f (g : Fs), g input = some c → csvCompressIo env a f g input = (if f.input = false then (g, .panicked) else
                match csvFlushWavbrroIo a f (a.base input) m g with
                | (fs1, .ok) =>
                  match csvFlushVsriIo a f (a.base input) m fs1 with
                  | (fs2, .ok) => csvFlushBroIo env a f (a.base input) m fs2
                  | r => r
                | r => r) := by
              intro f g h1
              rw [csvCompressIo, h1]; dsimp only; rw [hr]; dsimp only; rw [hm]; rfl
            cases r with
            | error e =>
              refine ⟨ws, .error e, mw, fun g h1 _ => ?_, fun f g q h1 _ h3 => ?_, fun h => by cases h⟩
              · rw [e1, f1 g (h1)]
              · rw [e2, f2 f g (h1)] at h3
                split at h3
                · exact absurd rfl h3
                · refine w3 f g q ?_
                  have := w4 f g
                  rcases hw : csvFlushWavbrroIo a f (a.base input) m g with ⟨fs1, x⟩
                  rw [hw] at h3 this
                  cases x with
                  | ok => cases this rfl
                  | err => exact h3
                  | panicked => exact h3
            | ok u =>
              refine ⟨ws ++ vs ++ bs, r2, ?_, fun g h1 _ => ?_, fun f g q h1 _ h3 => ?_, fun hok => .inl fun q hq => ?_⟩
              · intro w hw
                rw [List.mem_append, List.mem_append] at hw
                rcases hw with (hw | hw) | hw
                · exact mw w hw
                · exact mv w hw
                · exact mb w hw
              · rw [e1, f1 g (h1)]
              · rw [e2, f2 f g (h1)] at h3
                suffices (q ∈ ws.map (·.1) ∨ q ∈ vs.map (·.1)) ∨ q ∈ bs.map (·.1) by
                  rw [List.map_append, List.map_append, List.mem_append, List.mem_append]; exact this
                split at h3
                · exact absurd rfl h3
                · rcases hw : csvFlushWavbrroIo a f (a.base input) m g with ⟨fs1, x⟩
                  have hone : fs1 q ≠ g q → q ∈ ws.map (·.1) := fun h => w3 f g q (by rw [hw]; exact h)
                  rw [hw] at h3
                  cases x with
                  | err => exact .inl (.inl (hone h3))
                  | panicked => exact .inl (.inl (hone h3))
                  | ok =>
                    dsimp only at h3
                    by_cases h : fs1 q = g q
                    · rw [← h] at h3
                      rcases hx : csvFlushVsriIo a f (a.base input) m fs1 with ⟨fs2, y⟩
                      have htwo : fs2 q ≠ fs1 q → q ∈ vs.map (·.1) := fun h => v3 f fs1 q (by rw [hx]; exact h)
                      rw [hx] at h3
                      cases y with
                      | err => exact .inl (.inr (htwo h3))
                      | panicked => exact .inl (.inr (htwo h3))
                      | ok =>
                        dsimp only at h3
                        by_cases h' : fs2 q = fs1 q
                        · rw [← h'] at h3; exact .inr (b3 f fs2 q h3)
                        · exact .inl (.inr (htwo h'))
                    · exact .inl (.inl (hone h))
              · rw [List.map_append, List.map_append, List.mem_append, List.mem_append]
                rw [hout, List.mem_append, List.mem_append] at hq
                rcases hq with (hq | hq) | hq
                · by_cases hw : a.outputWavbrro = true
                  · rw [if_pos hw, List.mem_singleton] at hq; subst hq; exact .inl (.inl (w5 rfl hw))
                  · rw [if_neg hw] at hq; cases hq
                · by_cases hw : a.outputVsri = true
                  · rw [if_pos hw, List.mem_singleton] at hq; subst hq; exact .inl (.inr (v4 hw))
                  · rw [if_neg hw] at hq; cases hq
                · by_cases hw : a.noCompression = true
                  · rw [if_pos hw] at hq; cases hq
                  · rw [if_neg hw, List.mem_singleton] at hq; subst hq; exact .inr (b4 hok (by simpa using hw))

/-- A run of csv-compressor: what it writes depends on the content of its input (and of the index, when uncompressing) only, and a disturbed run changes nothing
but files the undisturbed run writes. -/
theorem csv_form (env : CsvEnv) (a : CsvArgs) (fs : Fs) (input : FPath) :
    ∃ (ws : List (FPath × Bytes)) (r : Except Panic Unit), (∀ w ∈ ws, w.1 ∈ csvOutputs a input) ∧
      (∀ g : Fs, g input = fs input → (a.uncompress = true → g (input.withExt "vsri") = fs (input.withExt "vsri")) → csvRun env a g input = (g.writeList ws, r)) ∧
      (∀ f (g : Fs) q, g input = fs input → (a.uncompress = true → g (input.withExt "vsri") = fs (input.withExt "vsri")) →
        (csvRunIo env a f g input).1 q ≠ g q → q ∈ ws.map (·.1)) ∧
      (r = .ok () → (∀ q ∈ csvOutputs a input, q ∈ ws.map (·.1)) ∨ (a.uncompress = true ∧ ∃ c, fs input = some c ∧ broRead c = .notBro)) :=
  csv_form_aux env a (fs input) (fs (input.withExt "vsri")) input

/-- The files after disturbed runs of csv-compressor. -/
def afterCsvRuns (env : CsvEnv) (a : CsvArgs) (input : FPath) (fs : Fs) (runs : List CsvFaults) : Fs := runs.foldl (fun s f => (csvRunIo env a f s input).1) fs

/-- **C117, csv-compressor.** After any number of runs of csv-compressor, whatever file operations fail in them, an undisturbed run ends as if they had never been -
provided the input is not one of the outputs. -/
theorem C117_csv (env : CsvEnv) (a : CsvArgs) (fs : Fs) (input : FPath) (hi : input ∉ csvOutputs a input) (runs : List CsvFaults) :
    csvRun env a (afterCsvRuns env a input fs runs) input = csvRun env a fs input := by
  obtain ⟨ws, r, h1, h2, h3, -⟩ := csv_form env a fs input
  have hw : ∀ q, q ∈ ws.map (·.1) → q ∈ csvOutputs a input := by
    intro q hq
    obtain ⟨w, hw, rfl⟩ := List.mem_map.1 hq
    exact h1 w hw
  have hx : a.uncompress = true → input.withExt "vsri" ∉ csvOutputs a input := by
    intro hu hm
    rw [csvOutputs, if_pos hu] at hm
    simp only [List.mem_cons, List.not_mem_nil, or_false, FPath.withExt, FPath.mk.injEq] at hm
    rcases hm with ⟨-, h⟩ | ⟨-, h⟩ <;> revert h <;> decide
  have key : ∀ (runs : List CsvFaults) (g : Fs), (∀ q, g q ≠ fs q → q ∈ ws.map (·.1)) → ∀ q, (afterCsvRuns env a input g runs) q ≠ fs q → q ∈ ws.map (·.1) := by
    intro runs
    induction runs with
    | nil => intro g h; exact h
    | cons f rs ih =>
      intro g h
      refine ih _ fun q hq => ?_
      dsimp only at hq
      by_cases he : (csvRunIo env a f g input).1 q = g q
      · exact h q (by rw [← he]; exact hq)
      · exact h3 f g q (by by_contra hc; exact hi (hw _ (h _ hc))) (fun hu => by by_contra hc; exact hx hu (hw _ (h _ hc))) he
  have hd := key runs fs (fun q h => absurd rfl h)
  generalize afterCsvRuns env a input fs runs = g at hd ⊢
  rw [h2 g (by by_contra hc; exact hi (hw _ (hd _ hc))) (fun hu => by by_contra hc; exact hx hu (hw _ (hd _ hc))), h2 fs rfl (fun _ => rfl), Fs.writeList_same hd]

/-- **C117, csv-compressor, killed runs.** A run of csv-compressor that succeeds (and does not pass over its input as no BRRO file) gives the same whatever is in its
output files beforehand, in particular what killed runs left there: the same files, nothing of the old content. -/
theorem C117_csv_killed (env : CsvEnv) (a : CsvArgs) (fs fs' left : Fs) (input : FPath) (hi : input ∉ csvOutputs a input)
    (h : csvRun env a fs input = (fs', .ok ())) (hb : a.uncompress = true → ∀ c, fs input = some c → c.take 4 = [66, 82, 82, 79])
    (hl : ∀ q, q ∉ csvOutputs a input → left q = fs q) : csvRun env a left input = (fs', .ok ()) := by
  obtain ⟨ws, r, h1, h2, -, h4⟩ := csv_form env a fs input
  have hx : a.uncompress = true → input.withExt "vsri" ∉ csvOutputs a input := by
    intro hu hm
    rw [csvOutputs, if_pos hu] at hm
    simp only [List.mem_cons, List.not_mem_nil, or_false, FPath.withExt, FPath.mk.injEq] at hm
    rcases hm with ⟨-, h⟩ | ⟨-, h⟩ <;> revert h <;> decide
  rw [h2 fs rfl fun _ => rfl] at h
  have hr : r = .ok () := congrArg Prod.snd h
  rw [h2 left (hl _ hi) (fun hu => hl _ (hx hu)), ← h, Fs.writeList_same (fs := fs)]
  intro q hq
  rcases h4 hr with h5 | ⟨hu, c, hc, h5⟩
  · by_contra hn
    exact hq (hl q fun hm => hn (h5 q hm))
  · have := hb hu c hc
    unfold broRead at h5
    split at h5
    · cases h5
    · rw [if_pos (show c.take 4 = brro from this)] at h5; cases h5

/-- Such a run: of an earlier one only half an index and an empty compressed file are left. -/
example : (let left : Fs := fun q => if q = ⟨"x", "vsri"⟩ then some [49, 48] else if q = ⟨"x", "bro"⟩ then some [] else csvDemoFs q
    decide ((csvRun demoCsvEnv (demoCsvArgs false) left ⟨"x", "csv"⟩).2 = .ok ()) &&
    decide ((csvRun demoCsvEnv (demoCsvArgs false) left ⟨"x", "csv"⟩).1 ⟨"x", "vsri"⟩ = (csvRun demoCsvEnv (demoCsvArgs false) csvDemoFs ⟨"x", "csv"⟩).1 ⟨"x", "vsri"⟩) &&
    decide ((csvRun demoCsvEnv (demoCsvArgs false) left ⟨"x", "csv"⟩).1 ⟨"x", "vsri"⟩ ≠ left ⟨"x", "vsri"⟩)) = true := by decide +kernel

/-- **C117 refuted when the input of csv-compressor is one of its outputs**: `csv-compressor x.bro` on a CSV file; a full disk empties it, and running again ends with a
panic, where the undisturbed run would have succeeded. -/
theorem C117_refuted_csv_self (env : CsvEnv) (a : CsvArgs) (hu : a.uncompress = false) (hn : a.noCompression = false) (fs fs' : Fs) (input : FPath)
    (hi : input = (a.base input).withExt "bro") (h : csvRun env a fs input = (fs', .ok ())) (hr : env.readCsv [] = none) (hb : fs' input ≠ some []) :
    csvRun env a (afterCsvRuns env a input fs [{ CsvFaults.calm with bro := { Fault.calm with stop := some 0 } }]) input =
      (afterCsvRuns env a input fs [{ CsvFaults.calm with bro := { Fault.calm with stop := some 0 } }], .error .unwrap) := by
  suffices hg : (afterCsvRuns env a input fs [{ CsvFaults.calm with bro := { Fault.calm with stop := some 0 } }]) input = some [] by
    unfold csvRun csvRunCompress
    rw [if_neg (by simp [hu]), hg]
    dsimp only
    rw [hr]
  show (csvRunIo env a { CsvFaults.calm with bro := { Fault.calm with stop := some 0 } } fs input).1 input = some []
  have hcalm := C100_csv_undisturbed env a fs input
  rw [h] at hcalm
  unfold csvRunIo at hcalm ⊢
  rw [if_neg (by simp [hu])] at hcalm ⊢
  unfold csvCompressIo at hcalm ⊢
  cases hf : fs input with
  | none => rw [hf] at hcalm; cases congrArg Prod.snd hcalm
  | some c =>
    rw [hf] at hcalm
    dsimp only at hcalm ⊢
    rw [if_neg (by simp [CsvFaults.calm])] at hcalm ⊢
    cases hs : env.readCsv c with
    | none => rw [hs] at hcalm; cases congrArg Prod.snd hcalm
    | some ss =>
      rw [hs] at hcalm
      dsimp only at hcalm ⊢
      cases hm : Metric.fromSamples env.p env.valid ss with
      | error e => rw [hm] at hcalm; cases congrArg Prod.snd hcalm
      | ok y =>
        rw [hm] at hcalm
        cases y with
        | error e => cases congrArg Prod.snd hcalm
        | ok m =>
          dsimp only at hcalm ⊢
          rw [show csvFlushWavbrroIo a { CsvFaults.calm with bro := { Fault.calm with stop := some 0 } } (a.base input) m fs =
            csvFlushWavbrroIo a .calm (a.base input) m fs from rfl]
          rcases h1 : csvFlushWavbrroIo a .calm (a.base input) m fs with ⟨fs1, e1⟩
          rw [h1] at hcalm
          cases e1 with
          | err => cases congrArg Prod.snd hcalm
          | panicked => cases congrArg Prod.snd hcalm
          | ok =>
            dsimp only at hcalm ⊢
            rw [show csvFlushVsriIo a { CsvFaults.calm with bro := { Fault.calm with stop := some 0 } } (a.base input) m fs1 =
              csvFlushVsriIo a .calm (a.base input) m fs1 from rfl]
            rcases h2 : csvFlushVsriIo a .calm (a.base input) m fs1 with ⟨fs2, e2⟩
            rw [h2] at hcalm
            cases e2 with
            | err => cases congrArg Prod.snd hcalm
            | panicked => cases congrArg Prod.snd hcalm
            | ok =>
              dsimp only at hcalm ⊢
              unfold csvFlushBroIo at hcalm ⊢
              rw [if_neg (by simp [hn])] at hcalm ⊢
              cases hd : compressData env.E env.p m.wbro.getSamples a.comp with
              | error e => rw [hd] at hcalm; cases congrArg Prod.snd hcalm
              | ok bs =>
                rw [hd] at hcalm
                dsimp only [writeAll, CsvFaults.calm, Fault.calm, csvEnded] at hcalm ⊢
                rw [if_neg (by simp)] at hcalm ⊢
                have e := congrArg Prod.fst hcalm
                dsimp only at e
                rw [← hi] at e ⊢
                by_cases hz : 0 < bs.length
                · rw [if_pos hz]; exact Fs.write_same _ _ _
                · have : bs = [] := List.length_eq_zero_iff.1 (by omega)
                  rw [← e, this, Fs.write_same] at hb
                  exact absurd rfl hb

/-- Such a case: the CSV reader accepts only a non-empty file. -/
example : (let env : CsvEnv := { demoCsvEnv with readCsv := fun c => if c = [] then none else some demoSamples }
    let fs : Fs := fun q => if q = ⟨"x", "bro"⟩ then some [97] else none
    let g := afterCsvRuns env (demoCsvArgs false) ⟨"x", "bro"⟩ fs [{ CsvFaults.calm with bro := { Fault.calm with stop := some 0 } }]
    decide ((csvRun env (demoCsvArgs false) fs ⟨"x", "bro"⟩).2 = .ok ()) && decide ((csvRun env (demoCsvArgs false) g ⟨"x", "bro"⟩).2 = .error .unwrap)) = true := by
  decide +kernel

/-- `C117_csv` on two failed runs: the disk full in the index, then in the compressed file. -/
example : (let g := afterCsvRuns demoCsvEnv (demoCsvArgs false) ⟨"x", "csv"⟩ csvDemoFs [{ CsvFaults.calm with vsri := { Fault.calm with stop := some 4 } }, { CsvFaults.calm with bro := { Fault.calm with stop := some 3 } }]
    decide (g ⟨"x", "bro"⟩ = some [66, 82, 82]) && decide ((csvRun demoCsvEnv (demoCsvArgs false) g ⟨"x", "csv"⟩).2 = .ok ()) &&
    decide ((csvRun demoCsvEnv (demoCsvArgs false) g ⟨"x", "csv"⟩).1 ⟨"x", "bro"⟩ = (csvRun demoCsvEnv (demoCsvArgs false) csvDemoFs ⟨"x", "csv"⟩).1 ⟨"x", "bro"⟩) &&
    decide ((⟨"x", "csv"⟩ : FPath) ∉ csvOutputs (demoCsvArgs false) ⟨"x", "csv"⟩)) = true := by decide +kernel

end Atsc
