import Verif.Model.Io
import Verif.Props.Rerun
import Verif.Props.CsvCompressor
/- C100: what the programs do when file operations fail. -/
namespace Atsc

/-! ### One attempt at one file -/

/-- An attempt ends before anything is written, or passes over the file, or gets to the point of writing the right content. -/
theorem tried (env : Env) (a : RunArgs) (f : Fault) (fs : Fs) (path : FPath) :
    (runSingleIo env a f fs path = (fs, .err) ∨ runSingleIo env a f fs path = (fs, .panicked)) ∨
    (runSingleIo env a f fs path = (fs, .ok) ∧ runSingle env a fs path = (fs, .ok)) ∨
    ∃ c b, fs path = some c ∧ Output env a c b ∧
      ((a.uncompress = false ∧ runSingleIo env a f fs path = writeAll f .err fs (outputPath a path) b) ∨
       (a.uncompress = true ∧ ∃ t, b = WavBrro.wholeFile t ∧ t ≠ [] ∧ runSingleIo env a f fs path = writeWbro f fs (outputPath a path) t)) := by
  unfold runSingleIo
  cases hc : fs path with
  | none => exact .inl (.inl rfl)
  | some c =>
    dsimp only
    by_cases h1 : f.read = .refused ∨ (f.read = .midway ∧ ¬ (a.uncompress = false ∧ a.csv = true))
    · rw [if_pos h1]; exact .inl (.inl rfl)
    rw [if_neg h1]
    by_cases h2 : f.read = .midway
    · rw [if_pos h2]; exact .inl (.inr rfl)
    rw [if_neg h2]
    by_cases hu : a.uncompress = true
    · have hp : path.withExt "wbro" = outputPath a path := by unfold outputPath FPath.withExt; rw [hu]; rfl
      rw [if_pos hu, hp]
      have hb : broRead c = if c.length < 12 then .eof else if c.take 4 = brro then .bytes c else .notBro := rfl
      rw [hb]
      by_cases hl : c.length < 12
      · rw [if_pos hl]; exact .inl (.inl rfl)
      rw [if_neg hl]
      by_cases h4 : c.take 4 = brro
      · rw [if_pos h4]
        dsimp only
        cases hd : decompressData env.E c with
        | error e => exact .inl (.inr rfl)
        | ok d =>
          dsimp only
          cases hw : (WavBrro.fromSlice d).toBytes with
          | error e => exact .inl (.inr rfl)
          | ok t =>
            refine .inr (.inr ⟨c, WavBrro.wholeFile t, rfl, .uncompress hu (by omega) h4 hd ?_, .inr ⟨hu, t, rfl, ?_, rfl⟩⟩)
            · unfold WavBrro.toFileWithData WavBrro.toFile
              rw [hw]; rfl
            · rintro rfl
              unfold WavBrro.toBytes at hw
              obtain ⟨x, -, hw⟩ := bind_ok_iff.1 hw
              obtain ⟨y, -, hw⟩ := bind_ok_iff.1 hw
              have := congrArg List.length (Except.ok.inj hw)
              simp at this
      · rw [if_neg h4]
        refine .inr (.inl ⟨rfl, runSingle_ok.2 (processSingle_ok_iff.2 ⟨c, hc, .inr ⟨⟨hu, by omega, h4⟩, rfl⟩⟩)⟩)
    · have hp : path.withExt "bro" = outputPath a path := by unfold outputPath FPath.withExt; rw [if_neg hu]
      have huf : a.uncompress = false := by simpa using hu
      rw [if_neg hu]
      by_cases hcsv : a.csv = true
      · rw [if_pos hcsv]
        cases hr : readCsv env a c with
        | error e => exact .inl (.inr rfl)
        | ok r =>
          cases r with
          | error e => exact .inl (.inl rfl)
          | ok d =>
            dsimp only [compressIo]
            cases hb : compressData env.E env.p d a.comp with
            | error e => exact .inl (.inr rfl)
            | ok b => exact .inr (.inr ⟨c, b, rfl, .csv huf hcsv hr hb, .inl ⟨huf, by rw [← hp]⟩⟩)
      · rw [if_neg hcsv]
        cases hr : WavBrro.fromFile env.addr c with
        | error e => exact .inl (.inr rfl)
        | ok r =>
          cases r with
          | ioError => exact .inl (.inl rfl)
          | formatError => exact .inl (.inl rfl)
          | samples d =>
            dsimp only [compressIo]
            cases hb : compressData env.E env.p d a.comp with
            | error e => exact .inl (.inr rfl)
            | ok b => exact .inr (.inr ⟨c, b, rfl, .wbro huf (by simpa using hcsv) hr hb, .inl ⟨huf, by rw [← hp]⟩⟩)

theorem runSingle_writes {env : Env} {a : RunArgs} {fs : Fs} {path : FPath} {c b : Bytes} (hc : fs path = some c) (ho : Output env a c b) :
    runSingle env a fs path = (fs.write (outputPath a path) b, .ok) :=
  runSingle_ok.2 (processSingle_ok_iff.2 ⟨c, hc, .inl ⟨b, ho, rfl⟩⟩)

/-- `std::fs::write`: nothing, everything, or a beginning. -/
theorem writeAll_cases (f : Fault) (bad : Ended) (fs : Fs) (o : FPath) (bs : Bytes) :
    writeAll f bad fs o bs = (fs.write o bs, .ok) ∨ writeAll f bad fs o bs = (fs, bad) ∨
    ∃ k, k < bs.length ∧ writeAll f bad fs o bs = (fs.write o (bs.take k), bad) := by
  unfold writeAll
  by_cases h : f.noCreate = true
  · rw [if_pos h]; exact .inr (.inl rfl)
  · rw [if_neg h]
    cases hs : f.stop with
    | none => exact .inl rfl
    | some n =>
      dsimp only
      by_cases hn : n < bs.length
      · rw [if_pos hn]; exact .inr (.inr ⟨n, hn, rfl⟩)
      · rw [if_neg hn]; exact .inl rfl

/-- The `write_at` calls never write fewer bytes than asked without an error. -/
def Fault.NoShort (f : Fault) : Prop := (∀ n, f.head ≠ .short n) ∧ ∀ n, f.body ≠ .short n

theorem wholeFile_eq {t : Bytes} (ht : t ≠ []) : WavBrro.wholeFile t = WavBrro.header ++ t := by
  have hl : t.length ≠ 0 := fun h => ht (List.length_eq_zero_iff.1 h)
  unfold WavBrro.wholeFile WavBrro.writtenFile
  rw [if_neg (by rintro (h | h); exact hl h; exact ht h), List.take_length]
  rfl

theorem writeWbro_cases (f : Fault) (fs : Fs) (o : FPath) (t : Bytes) (ht : t ≠ []) :
    (writeWbro f fs o t = (fs, .panicked)) ∨ (∃ k, k < (WavBrro.wholeFile t).length ∧ writeWbro f fs o t = (fs.write o ((WavBrro.wholeFile t).take k), .panicked)) ∨
    (∃ x, writeWbro f fs o t = (fs.write o x, .ok) ∧ (f.NoShort → x = WavBrro.wholeFile t)) := by
  have hw := wholeFile_eq ht
  have hlen : (WavBrro.wholeFile t).length = 12 + t.length := by rw [hw, List.length_append]; rfl
  have hl : t.length ≠ 0 := fun h => ht (List.length_eq_zero_iff.1 h)
  unfold writeWbro
  by_cases h : f.noCreate = true
  · rw [if_pos h]; exact .inl rfl
  · rw [if_neg h]
    cases h1 : f.head.count 12 with
    | none => exact .inr (.inl ⟨0, by omega, rfl⟩)
    | some k1 =>
      have hk1 : k1 ≤ 12 := by
        cases hh : f.head <;> rw [hh] at h1 <;> simp only [Wrote.count, Option.some.injEq, reduceCtorEq] at h1 <;> omega
      dsimp only
      cases h2 : f.body.count t.length with
      | none =>
        refine .inr (.inl ⟨k1, by omega, ?_⟩)
        rw [hw, List.take_append_of_le_length (by exact hk1)]
      | some k2 =>
        refine .inr (.inr ⟨_, rfl, fun hn => ?_⟩)
        have e1 : k1 = 12 := by
          cases hh : f.head with
          | all => rw [hh] at h1; exact (Option.some.inj h1).symm
          | short n => exact absurd hh (hn.1 n)
          | fails => rw [hh] at h1; cases h1
        have e2 : k2 = t.length := by
          cases hh : f.body with
          | all => rw [hh] at h2; exact (Option.some.inj h2).symm
          | short n => exact absurd hh (hn.2 n)
          | fails => rw [hh] at h2; cases h2
        rw [e1, e2]
        rfl

theorem noShort_calm : Fault.calm.NoShort := ⟨(by intro n h; cases h), (by intro n h; cases h)⟩

/-- One attempt: only the output changes, to a proper beginning of the right content if the attempt fails, and to the right content if it does not. -/
theorem attempt_spec (env : Env) (a : RunArgs) (f : Fault) (fs fs' : Fs) (e : Ended) (path : FPath) (h : runSingleIo env a f fs path = (fs', e)) :
    (∀ q, q ≠ outputPath a path → fs' q = fs q) ∧
    (e ≠ .ok → fs' = fs ∨ ((e = .err → a.uncompress = false) ∧ ∃ c b k, fs path = some c ∧ Output env a c b ∧ k < b.length ∧ fs' = fs.write (outputPath a path) (b.take k))) ∧
    (e = .ok → (a.uncompress = true → f.NoShort) → runSingle env a fs path = (fs', .ok)) := by
  rcases tried env a f fs path with (h1 | h1) | ⟨h1, h2⟩ | ⟨c, b, hc, ho, ⟨hu, h1⟩ | ⟨hu, t, rfl, ht, h1⟩⟩ <;> rw [h] at h1
  · cases h1; exact ⟨fun _ _ => rfl, fun _ => .inl rfl, fun h => by cases h⟩
  · cases h1; exact ⟨fun _ _ => rfl, fun _ => .inl rfl, fun h => by cases h⟩
  · cases h1; exact ⟨fun _ _ => rfl, fun _ => .inl rfl, fun _ _ => h2⟩
  · rcases writeAll_cases f .err fs (outputPath a path) b with h2 | h2 | ⟨k, hk, h2⟩ <;> rw [h2] at h1 <;> cases h1
    · exact ⟨fun q hq => if_neg hq, fun h => absurd rfl h, fun _ _ => runSingle_writes hc ho⟩
    · exact ⟨fun _ _ => rfl, fun _ => .inl rfl, fun h => by cases h⟩
    · exact ⟨fun q hq => if_neg hq, fun _ => .inr ⟨fun _ => hu, c, b, k, hc, ho, hk, rfl⟩, fun h => by cases h⟩
  · rcases writeWbro_cases f fs (outputPath a path) t ht with h2 | ⟨k, hk, h2⟩ | ⟨x, h2, hx⟩ <;> rw [h2] at h1 <;> cases h1
    · exact ⟨fun _ _ => rfl, fun _ => .inl rfl, fun h => by cases h⟩
    · exact ⟨fun q hq => if_neg hq, fun _ => .inr ⟨(fun h => by cases h), c, _, k, hc, ho, hk, rfl⟩, fun h => by cases h⟩
    · refine ⟨fun q hq => if_neg hq, fun h => absurd rfl h, fun _ hn => ?_⟩
      rw [hx (hn hu)]
      exact runSingle_writes hc ho

/-- Without faults an attempt is the run of `Main.lean`. -/
theorem attempt_calm (env : Env) (a : RunArgs) (fs : Fs) (path : FPath) : runSingleIo env a .calm fs path = runSingle env a fs path := by
  unfold runSingleIo runSingle processSingle
  cases hc : fs path with
  | none =>
    dsimp only
    by_cases hu : a.uncompress = true
    · rw [if_pos hu]
    · rw [if_neg hu]
      by_cases hcsv : a.csv = true
      · rw [if_pos hcsv]
      · rw [if_neg hcsv]
  | some c =>
    dsimp only
    rw [if_neg (by rintro (h | ⟨h, -⟩) <;> cases h), if_neg (by intro h; cases h)]
    by_cases hu : a.uncompress = true
    · rw [if_pos hu, if_pos hu]
      cases broRead c with
      | eof => rfl
      | notBro => rfl
      | bytes bs =>
        dsimp only [bind, Except.bind]
        cases decompressData env.E bs with
        | error e => rfl
        | ok d =>
          dsimp only [WavBrro.toFileWithData, WavBrro.toFile, bind, Except.bind]
          cases (WavBrro.fromSlice d).toBytes with
          | error e => rfl
          | ok t => rfl
    · rw [if_neg hu, if_neg hu]
      by_cases hcsv : a.csv = true
      · rw [if_pos hcsv, if_pos hcsv]
        dsimp only [bind, Except.bind, compressIo]
        cases readCsv env a c with
        | error e => rfl
        | ok r =>
          cases r with
          | error e => rfl
          | ok d =>
            dsimp only
            cases compressData env.E env.p d a.comp <;> rfl
      · rw [if_neg hcsv, if_neg hcsv]
        dsimp only [bind, Except.bind, compressIo]
        cases WavBrro.fromFile env.addr c with
        | error e => rfl
        | ok r =>
          cases r with
          | ioError => rfl
          | formatError => rfl
          | samples d =>
            dsimp only
            cases compressData env.E env.p d a.comp <;> rfl

/-! ### C100: atsc -/

theorem runDirIo_calm (env : Env) (a : RunArgs) : ∀ (entries : List (FPath × Bool)) (k : Nat) (fs : Fs),
    runDirIo env a (fun _ => .calm) false k fs entries = runDir env a fs entries
  | [], _, _ => rfl
  | (p, false) :: rest, k, fs => by
    rw [runDirIo, runDir, if_neg (by simp), if_neg (by simp)]
    exact runDirIo_calm env a rest k fs
  | (p, true) :: rest, k, fs => by
    rw [runDirIo, runDir, if_pos rfl, if_pos rfl, attempt_calm]
    rcases runSingle env a fs p with ⟨fs1, e⟩
    cases e with
    | ok => exact runDirIo_calm env a rest (k + 1) fs1
    | panicked => rfl
    | err =>
      dsimp only
      rw [attempt_calm]
      rcases runSingle env a fs1 p with ⟨fs2, e⟩
      cases e with
      | ok => exact runDirIo_calm env a rest (k + 2) fs2
      | panicked => rfl
      | err => rfl

/-- The model with faults extends the one without. -/
theorem C100_undisturbed (env : Env) (a : RunArgs) (fs : Fs) (i : Input) : runMainIo env a (fun _ => .calm) false fs i = runMain env a fs i := by
  unfold runMainIo runMain runArgs
  cases i with
  | missing => rfl
  | other => rfl
  | file p => dsimp only; rw [attempt_calm]
  | dir es => dsimp only; rw [runDirIo_calm]

/-- **C100, one file.** Whatever file operations fail in a run on one file: no file but its output changes; if the status is not 0, nothing has changed
or the output is a proper beginning of what it should be; if the status is 0, files and status are those of the undisturbed run - for `-u` provided that
`write_at` writes all it is given or fails (`C100_refuted_short`). -/
theorem C100_file (env : Env) (a : RunArgs) (F : Nat → Fault) (cut : Bool) (fs : Fs) (path : FPath) :
    (∀ q, q ≠ outputPath a path → (runMainIo env a F cut fs (.file path)).1 q = fs q) ∧
    ((runMainIo env a F cut fs (.file path)).2 ≠ 0 → (runMainIo env a F cut fs (.file path)).1 = fs ∨
      ∃ c b k, fs path = some c ∧ Output env a c b ∧ k < b.length ∧ (runMainIo env a F cut fs (.file path)).1 (outputPath a path) = some (b.take k)) ∧
    ((runMainIo env a F cut fs (.file path)).2 = 0 → (a.uncompress = true → (F 0).NoShort) →
      runMainIo env a F cut fs (.file path) = runMain env a fs (.file path)) := by
  unfold runMainIo runMain runArgs
  dsimp only
  cases hr : runSingleIo env a (F 0) fs path with
  | mk fs' e =>
    dsimp only
    obtain ⟨g1, g2, g3⟩ := attempt_spec env a (F 0) fs fs' e path hr
    refine ⟨g1, fun he => ?_, fun he hn => ?_⟩
    · rcases g2 (fun h => he (status_zero.2 h)) with h | ⟨-, c, b, k, h1, h2, h3, rfl⟩
      · exact .inl h
      · exact .inr ⟨c, b, k, h1, h2, h3, Fs.write_same _ _ _⟩
    · have he := status_zero.1 he
      rw [g3 he hn, he]

/-- What a failed compression leaves in the output is never uncompressed: a `-u` run on it ends with a status other than 0 and changes nothing. -/
theorem C100_leftover (env : Env) (hE : env.E.Lawful) (a : RunArgs) (ha : a.comp.Valid) (hu : a.uncompress = false) (F : Nat → Fault) (cut : Bool) (fs fs' : Fs)
    (path : FPath) (s : Nat) (hr : runMainIo env a F cut fs (.file path) = (fs', s)) (hs : s ≠ 0) (hch : fs' ≠ fs)
    (hfew : ∀ c d, fs path = some c → (readCsv env a c = .ok (.ok d) ∨ WavBrro.fromFile env.addr c = .ok (.samples d)) → FewEnough env.p d)
    (hsize : ∀ c b, fs path = some c → Output env a c b → b.length < 2 ^ 64) (a' : RunArgs) (hu' : a'.uncompress = true) :
    (runMain env a' fs' (.file (outputPath a path))).1 = fs' ∧ (runMain env a' fs' (.file (outputPath a path))).2 ≠ 0 := by
  obtain ⟨-, g, -⟩ := C100_file env a F cut fs path
  rw [hr] at g
  dsimp only at g
  rcases g hs with h | ⟨c, b, k, hc, ho, hk, hx⟩
  · exact absurd h hch
  · obtain ⟨d, hd, hb⟩ : ∃ d, (readCsv env a c = .ok (.ok d) ∨ WavBrro.fromFile env.addr c = .ok (.samples d)) ∧ compressData env.E env.p d a.comp = .ok b := by
      cases ho with
      | uncompress h => rw [hu] at h; cases h
      | csv _ _ h1 h2 => exact ⟨_, .inl h1, h2⟩
      | wbro _ _ h1 h2 => exact ⟨_, .inr h1, h2⟩
    obtain ⟨b', e1, e2⟩ := C71_cut_never_uncompresses env hE d a.comp ha (hfew c d hc hd)
    rw [hb] at e1
    obtain rfl := Except.ok.inj e1
    obtain ⟨k1, k2⟩ := e2 (hsize c b hc ho) k hk a' fs' _ hu' hx
    unfold runMain runArgs runSingle
    dsimp only
    rcases Nat.lt_or_ge k 12 with h | h
    · rw [k1 h]; exact ⟨rfl, Nat.one_ne_zero⟩
    · obtain ⟨e, he⟩ := k2 h
      rw [he]; exact ⟨rfl, fun h => Nat.noConfusion h⟩

/-- The attempts at one file of a directory. -/
theorem runDirIo_cons {env : Env} {a : RunArgs} {F : Nat → Fault} {cut : Bool} {k : Nat} {fs fs' : Fs} {e : Ended} {p : FPath} {rest : List (FPath × Bool)}
    (h : runDirIo env a F cut k fs ((p, true) :: rest) = (fs', e)) :
    (∃ fs1, runSingleIo env a (F k) fs p = (fs1, .ok) ∧ runDirIo env a F cut (k + 1) fs1 rest = (fs', e)) ∨
    (runSingleIo env a (F k) fs p = (fs', .panicked) ∧ e = .panicked) ∨
    (∃ fs1 fs2, runSingleIo env a (F k) fs p = (fs1, .err) ∧ runSingleIo env a (F (k + 1)) fs1 p = (fs2, .ok) ∧ runDirIo env a F cut (k + 2) fs2 rest = (fs', e)) ∨
    (∃ fs1, runSingleIo env a (F k) fs p = (fs1, .err) ∧ runSingleIo env a (F (k + 1)) fs1 p = (fs', e) ∧ e ≠ .ok) := by
  rw [runDirIo, if_pos rfl] at h
  rcases h1 : runSingleIo env a (F k) fs p with ⟨fs1, e1⟩
  rw [h1] at h
  cases e1 with
  | ok => exact .inl ⟨fs1, rfl, h⟩
  | panicked => cases h; exact .inr (.inl ⟨rfl, rfl⟩)
  | err =>
    dsimp only at h
    rcases h2 : runSingleIo env a (F (k + 1)) fs1 p with ⟨fs2, e2⟩
    rw [h2] at h
    cases e2 with
    | ok => exact .inr (.inr (.inl ⟨fs1, fs2, rfl, h2, h⟩))
    | panicked => cases h; exact .inr (.inr (.inr ⟨fs1, rfl, h2, by simp⟩))
    | err => cases h; exact .inr (.inr (.inr ⟨fs1, rfl, h2, by simp⟩))

theorem Fs.write_write (fs : Fs) (p : FPath) (b b' : Bytes) : (fs.write p b).write p b' = fs.write p b' := by
  funext q; unfold Fs.write; by_cases h : q = p <;> simp [h]

/-- A second attempt after a failed one ends as if there had been no first one. -/
theorem retry {env : Env} {a : RunArgs} {f g : Fault} {fs fs1 fs2 : Fs} {p : FPath} (hp : p ≠ outputPath a p) (hn : a.uncompress = true → g.NoShort)
    (h1 : runSingleIo env a f fs p = (fs1, .err)) (h2 : runSingleIo env a g fs1 p = (fs2, .ok)) : runSingle env a fs p = (fs2, .ok) := by
  have r2 := (attempt_spec env a g fs1 fs2 .ok p h2).2.2 rfl hn
  rcases (attempt_spec env a f fs fs1 .err p h1).2.1 (by simp) with rfl | ⟨hu, c, b, k, hc, ho, hk, rfl⟩
  · exact r2
  · obtain ⟨c', hc', h⟩ := processSingle_ok_iff.1 (runSingle_ok.1 r2)
    rw [show (fs.write (outputPath a p) (b.take k)) p = fs p from if_neg hp] at hc'
    refine runSingle_ok.2 (processSingle_ok_iff.2 ⟨c', hc', ?_⟩)
    rcases h with ⟨b', ho', rfl⟩ | ⟨hs, -⟩
    · exact .inl ⟨b', ho', Fs.write_write ..⟩
    · have := hu rfl
      rw [hs.1] at this; cases this

theorem runDirIo_ok {env : Env} {a : RunArgs} {F : Nat → Fault} {cut : Bool} (hn : a.uncompress = true → ∀ k, (F k).NoShort) :
    ∀ {entries : List (FPath × Bool)} {k : Nat} {fs fs' : Fs}, (∀ p ∈ regularFiles entries, p ≠ outputPath a p) →
      runDirIo env a F cut k fs entries = (fs', .ok) → runDir env a fs entries = (fs', .ok)
  | [], k, fs, fs', _, h => by
    rw [runDirIo] at h
    cases cut with
    | true => cases h
    | false => exact h
  | (p, false) :: rest, k, fs, fs', hs, h => by
    rw [runDirIo, if_neg (by simp)] at h
    rw [runDir, if_neg (by simp)]
    exact runDirIo_ok hn (entries := rest) hs h
  | (p, true) :: rest, k, fs, fs', hs, h => by
    have hr : regularFiles ((p, true) :: rest) = p :: regularFiles rest := rfl
    rw [hr] at hs
    have key : ∃ fs1 k', runSingle env a fs p = (fs1, .ok) ∧ runDirIo env a F cut k' fs1 rest = (fs', .ok) := by
      rcases runDirIo_cons h with ⟨fs1, h1, h2⟩ | ⟨-, h1⟩ | ⟨fs1, fs2, h1, h2, h3⟩ | ⟨fs1, h1, h2, h3⟩
      · exact ⟨fs1, _, (attempt_spec _ _ _ _ _ _ _ h1).2.2 rfl (fun hu => hn hu k), h2⟩
      · cases h1
      · exact ⟨fs2, _, retry (hs p (List.mem_cons_self ..)) (fun hu => hn hu _) h1 h2, h3⟩
      · exact absurd rfl h3
    obtain ⟨fs1, k', h1, h2⟩ := key
    rw [runDir, if_pos rfl, h1]
    exact runDirIo_ok hn (fun q hq => hs q (List.mem_cons_of_mem _ hq)) h2

/-- **C100, directories.** Whatever file operations fail in a run on a directory - also if only for a while, so that the second attempt at a file succeeds -
a status of 0 means that files and status are those of the undisturbed run. (No file may be its own output; for `-u`, `write_at` writes all it is given or
fails.) -/
theorem C100_directory (env : Env) (a : RunArgs) (F : Nat → Fault) (cut : Bool) (fs : Fs) (entries : List (FPath × Bool))
    (hs : ∀ p ∈ regularFiles entries, p ≠ outputPath a p) (hn : a.uncompress = true → ∀ k, (F k).NoShort)
    (h : (runMainIo env a F cut fs (.dir entries)).2 = 0) : runMainIo env a F cut fs (.dir entries) = runMain env a fs (.dir entries) := by
  unfold runMainIo runMain runArgs at *
  dsimp only at *
  rcases hr : runDirIo env a F cut 0 fs entries with ⟨fs', e⟩
  rw [hr] at h
  have he : e = .ok := status_zero.1 h
  subst he
  rw [runDirIo_ok hn hs hr]

/-- C100: whatever fails in a run on a directory, and however it ends, no file changes but the outputs of the files in it. -/
theorem C100_directory_effects (env : Env) (a : RunArgs) (F : Nat → Fault) (cut : Bool) (fs : Fs) (entries : List (FPath × Bool)) (q : FPath)
    (hq : ∀ p ∈ regularFiles entries, q ≠ outputPath a p) : (runMainIo env a F cut fs (.dir entries)).1 q = fs q := by
  have key : ∀ (entries : List (FPath × Bool)) (k : Nat) (fs : Fs), (∀ p ∈ regularFiles entries, q ≠ outputPath a p) →
      (runDirIo env a F cut k fs entries).1 q = fs q := by
    intro entries
    induction entries with
    | nil => intros; rfl
    | cons x rest ih =>
      intro k fs hq
      obtain ⟨p, b⟩ := x
      cases b with
      | false => rw [runDirIo, if_neg (by simp)]; exact ih k fs hq
      | true =>
        have hr : regularFiles ((p, true) :: rest) = p :: regularFiles rest := rfl
        rw [hr] at hq
        have hp := hq p (List.mem_cons_self ..)
        have hrest : ∀ p ∈ regularFiles rest, q ≠ outputPath a p := fun p' h => hq p' (List.mem_cons_of_mem _ h)
        rcases h : runDirIo env a F cut k fs ((p, true) :: rest) with ⟨fs', e⟩
        dsimp only
        rcases runDirIo_cons h with ⟨fs1, h1, h2⟩ | ⟨h1, -⟩ | ⟨fs1, fs2, h1, h2, h3⟩ | ⟨fs1, h1, h2, -⟩
        · rw [← (attempt_spec _ _ _ _ _ _ _ h1).1 q hp, ← ih (k + 1) fs1 hrest, h2]
        · exact (attempt_spec _ _ _ _ _ _ _ h1).1 q hp
        · rw [← (attempt_spec _ _ _ _ _ _ _ h1).1 q hp, ← (attempt_spec _ _ _ _ _ _ _ h2).1 q hp, ← ih (k + 2) fs2 hrest, h3]
        · rw [(attempt_spec _ _ _ _ _ _ _ h2).1 q hp, (attempt_spec _ _ _ _ _ _ _ h1).1 q hp]
  exact key entries 0 fs hq

/-- **C100 refuted for `-u`.** `write_at` may write less than it is given: for every file that uncompresses, if the second call writes nothing, the run ends with
status 0 and leaves 12 bytes in place of the series. -/
theorem C100_refuted_short (env : Env) (a : RunArgs) (hu : a.uncompress = true) (fs : Fs) (path : FPath) (c b : Bytes) (hc : fs path = some c)
    (ho : Output env a c b) : runMainIo env a (fun _ => { Fault.calm with body := .short 0 }) false fs (.file path) = (fs.write (outputPath a path) (b.take 12), 0) ∧
      12 < b.length := by
  have hp : path.withExt "wbro" = outputPath a path := by unfold outputPath FPath.withExt; rw [hu]; rfl
  cases ho with
  | csv h => rw [hu] at h; cases h
  | wbro h => rw [hu] at h; cases h
  | @uncompress d _ _ hl h4 h1 h2 =>
    unfold WavBrro.toFileWithData WavBrro.toFile at h2
    obtain ⟨t, h3, h2⟩ := bind_ok_iff.1 h2
    obtain rfl := Except.ok.inj h2
    have ht : t ≠ [] := by
      rintro rfl
      unfold WavBrro.toBytes at h3
      obtain ⟨x, -, hw⟩ := bind_ok_iff.1 h3
      obtain ⟨y, -, hw⟩ := bind_ok_iff.1 hw
      have := congrArg List.length (Except.ok.inj hw)
      simp at this
    have hl' : t.length ≠ 0 := fun h => ht (List.length_eq_zero_iff.1 h)
    refine ⟨?_, by rw [wholeFile_eq ht, List.length_append]; have : WavBrro.header.length = 12 := rfl; omega⟩
    have hb : broRead c = .bytes c := by unfold broRead; rw [if_neg (by omega)]; exact if_pos h4
    unfold runMainIo runSingleIo
    dsimp only
    rw [hc]
    dsimp only
    rw [if_neg (by rintro (h | ⟨h, -⟩) <;> cases h), if_neg (by intro h; cases h), if_pos hu, hb]
    dsimp only
    rw [h1]
    dsimp only
    rw [h3, hp]
    dsimp only [writeWbro, Fault.calm, Wrote.count]
    rw [if_neg (by simp), wholeFile_eq ht]
    rfl

/-- **C100 refuted: a failed run destroys the previous output.** When the disk is full, compressing again ends with status 1 and an empty output, whatever good
output of an earlier run was there. -/
theorem C100_refuted_destroys (env : Env) (a : RunArgs) (hu : a.uncompress = false) (fs : Fs) (path : FPath) (c b : Bytes) (hc : fs path = some c)
    (ho : Output env a c b) (hb : b ≠ []) : runMainIo env a (fun _ => { Fault.calm with stop := some 0 }) false fs (.file path) = (fs.write (outputPath a path) [], 1) := by
  have hl : 0 < b.length := Nat.pos_of_ne_zero fun h => hb (List.length_eq_zero_iff.1 h)
  have e : runSingleIo env a { Fault.calm with stop := some 0 } fs path = writeAll { Fault.calm with stop := some 0 } .err fs (outputPath a path) b := by
    have hp : path.withExt "bro" = outputPath a path := by unfold outputPath FPath.withExt; rw [if_neg (by simp [hu])]
    unfold runSingleIo
    rw [hc]
    dsimp only
    rw [if_neg (by rintro (h | ⟨h, -⟩) <;> cases h), if_neg (by intro h; cases h), if_neg (by simp [hu])]
    cases ho with
    | uncompress h => rw [hu] at h; cases h
    | csv _ hcsv h1 h2 => rw [if_pos hcsv, h1]; dsimp only [compressIo]; rw [h2, hp]
    | wbro _ hcsv h1 h2 => rw [if_neg (by simp [hcsv]), h1]; dsimp only [compressIo]; rw [h2, hp]
  unfold runMainIo
  dsimp only
  rw [e]
  dsimp only [writeAll, Fault.calm]
  rw [if_neg (by simp), if_pos hl]
  rfl

/-! ### C100: csv-compressor -/

/-- How an undisturbed run of csv-compressor ends. -/
def csvEnded (r : Fs × Except Panic Unit) : Fs × Ended := (r.1, match r.2 with | .ok () => .ok | .error _ => .panicked)

theorem writeWbro_calm {f : Fault} (hc : f.noCreate = false) (hh : f.head = .all) (hb : f.body = .all) (fs : Fs) (o : FPath) (t : Bytes) :
    writeWbro f fs o t = (fs.write o (WavBrro.wholeFile t), .ok) := by
  unfold writeWbro
  rw [if_neg (by simp [hc]), hh, hb]
  rfl

theorem toFile_bytes {w : WavBrro} : w.toFile = (match w.toBytes with | .error e => .error e | .ok t => .ok (WavBrro.wholeFile t)) := by
  unfold WavBrro.toFile
  cases w.toBytes <;> rfl

/-- The model with faults extends the one without. -/
theorem C100_csv_undisturbed (env : CsvEnv) (a : CsvArgs) (fs : Fs) (input : FPath) : csvRunIo env a .calm fs input = csvEnded (csvRun env a fs input) := by
  unfold csvRunIo csvRun
  by_cases hu : a.uncompress = true
  · rw [if_pos hu, if_pos hu]
    unfold csvUncompressIo csvRunUncompress
    cases hf : fs input with
    | none => rfl
    | some c =>
      dsimp only
      rw [if_neg (by simp [CsvFaults.calm])]
      cases broRead c with
      | eof => rfl
      | notBro => rfl
      | bytes bs =>
        dsimp only
        cases decompressData env.E bs with
        | error e => rfl
        | ok d =>
          dsimp only
          cases WavBrro.addAll env.p .new d with
          | error e => rfl
          | ok w =>
            dsimp only
            cases fs (input.withExt "vsri") with
            | none => rfl
            | some x =>
              dsimp only
              rw [if_neg (by simp [CsvFaults.calm])]
              cases Vsri.loadOrPanic x with
              | error e => rfl
              | ok v =>
                dsimp only [WavBrro.toFileWithData]
                rw [toFile_bytes]
                cases (WavBrro.fromSlice d).toBytes with
                | error e => rfl
                | ok t =>
                  dsimp only
                  rw [writeWbro_calm rfl rfl rfl]
                  dsimp only
                  cases Metric.getSamples env.p ⟨w, v⟩ with
                  | error e => rfl
                  | ok ss => rfl
  · rw [if_neg hu, if_neg hu]
    unfold csvCompressIo csvRunCompress
    cases hf : fs input with
    | none => rfl
    | some c =>
      dsimp only
      rw [if_neg (by simp [CsvFaults.calm])]
      cases env.readCsv c with
      | none => rfl
      | some ss =>
        dsimp only
        cases Metric.fromSamples env.p env.valid ss with
        | error e => rfl
        | ok r =>
          cases r with
          | error e => rfl
          | ok m =>
            dsimp only
            have h1 : csvFlushWavbrroIo a .calm (a.base input) m fs = csvEnded (csvFlushWavbrro a (a.base input) m fs) := by
              unfold csvFlushWavbrroIo csvFlushWavbrro
              by_cases hw : a.outputWavbrro = true
              · rw [if_pos hw, if_pos hw, toFile_bytes]
                cases m.wbro.toBytes with
                | error e => rfl
                | ok t => exact writeWbro_calm rfl rfl rfl ..
              · rw [if_neg hw, if_neg hw]; rfl
            rw [h1]
            rcases csvFlushWavbrro a (a.base input) m fs with ⟨fs1, r⟩
            cases r with
            | error e => rfl
            | ok u =>
              dsimp only [csvEnded]
              have h2 : csvFlushVsriIo a .calm (a.base input) m fs1 = (csvFlushVsri a (a.base input) m fs1, .ok) := by
                unfold csvFlushVsriIo csvFlushVsri
                by_cases hv : a.outputVsri = true
                · rw [if_pos hv, if_pos hv]; rfl
                · rw [if_neg hv, if_neg hv]
              rw [h2]
              dsimp only
              generalize csvFlushVsri a (a.base input) m fs1 = fs2
              unfold csvFlushBroIo csvFlushBro
              by_cases hn : a.noCompression = true
              · rw [if_pos hn, if_pos hn]
              · rw [if_neg hn, if_neg hn]
                cases compressData env.E env.p m.wbro.getSamples a.comp <;> rfl

theorem writeAll_ok {f : Fault} {bad : Ended} {fs fs' : Fs} {o : FPath} {bs : Bytes} (hb : bad ≠ .ok) (h : writeAll f bad fs o bs = (fs', .ok)) :
    fs' = fs.write o bs := by
  rcases writeAll_cases f bad fs o bs with h2 | h2 | ⟨k, hk, h2⟩ <;> rw [h2] at h
  · exact (congrArg Prod.fst h).symm
  · exact absurd (congrArg Prod.snd h) hb
  · exact absurd (congrArg Prod.snd h) hb

theorem writeWbro_ok {f : Fault} {fs fs' : Fs} {o : FPath} {t : Bytes} (hn : f.NoShort) (h : writeWbro f fs o t = (fs', .ok)) :
    fs' = fs.write o (WavBrro.wholeFile t) := by
  have e1 : ∀ n, f.head.count 12 = some n → n = 12 := by
    intro n hn'
    cases hh : f.head with
    | all => rw [hh] at hn'; exact (Option.some.inj hn').symm
    | short m => exact absurd hh (hn.1 m)
    | fails => rw [hh] at hn'; cases hn'
  have e2 : ∀ n, f.body.count t.length = some n → n = t.length := by
    intro n hn'
    cases hh : f.body with
    | all => rw [hh] at hn'; exact (Option.some.inj hn').symm
    | short m => exact absurd hh (hn.2 m)
    | fails => rw [hh] at hn'; cases hn'
  unfold writeWbro at h
  split at h
  · cases h
  · split at h
    · cases h
    · rename_i k1 h1
      split at h
      · cases h
      · rename_i k2 h2
        rw [e1 k1 h1, e2 k2 h2] at h
        exact (congrArg Prod.fst h).symm

/-- **C100, csv-compressor, compressing.** Whatever file operations fail, a run that does not panic leaves the files of the undisturbed run (which does not panic
either), provided `write_at` writes all it is given or fails. -/
theorem C100_csv_compress (env : CsvEnv) (a : CsvArgs) (hu : a.uncompress = false) (f : CsvFaults) (hn : f.wbro.NoShort) (fs fs' : Fs) (input : FPath)
    (h : csvRunIo env a f fs input = (fs', .ok)) : csvRun env a fs input = (fs', .ok ()) := by
  unfold csvRunIo at h
  unfold csvRun
  rw [if_neg (by simp [hu])] at h ⊢
  unfold csvCompressIo at h
  unfold csvRunCompress
  cases hf : fs input with
  | none => rw [hf] at h; cases h
  | some c =>
    rw [hf] at h
    dsimp only at h ⊢
    split at h
    · cases h
    cases hr : env.readCsv c with
    | none => rw [hr] at h; cases h
    | some ss =>
      rw [hr] at h
      dsimp only at h ⊢
      cases hm : Metric.fromSamples env.p env.valid ss with
      | error e => rw [hm] at h; cases h
      | ok r =>
        rw [hm] at h
        cases r with
        | error e => cases h
        | ok m =>
          dsimp only at h ⊢
          rcases h1 : csvFlushWavbrroIo a f (a.base input) m fs with ⟨fs1, e1⟩
          rw [h1] at h
          cases e1 with
          | err => cases h
          | panicked => cases h
          | ok =>
            dsimp only at h
            have g1 : csvFlushWavbrro a (a.base input) m fs = (fs1, .ok ()) := by
              unfold csvFlushWavbrroIo at h1
              unfold csvFlushWavbrro
              by_cases hw : a.outputWavbrro = true
              · rw [if_pos hw] at h1 ⊢
                rw [toFile_bytes]
                cases ht : m.wbro.toBytes with
                | error e => rw [ht] at h1; cases h1
                | ok t => rw [ht] at h1; dsimp only at h1 ⊢; rw [writeWbro_ok hn h1]
              · rw [if_neg hw] at h1 ⊢; cases h1; rfl
            rw [g1]
            dsimp only
            rcases h2 : csvFlushVsriIo a f (a.base input) m fs1 with ⟨fs2, e2⟩
            rw [h2] at h
            cases e2 with
            | err => cases h
            | panicked => cases h
            | ok =>
              dsimp only at h
              have g2 : csvFlushVsri a (a.base input) m fs1 = fs2 := by
                unfold csvFlushVsriIo at h2
                unfold csvFlushVsri
                by_cases hv : a.outputVsri = true
                · rw [if_pos hv] at h2 ⊢; exact (writeAll_ok (by simp) h2).symm
                · rw [if_neg hv] at h2 ⊢; exact congrArg Prod.fst h2
              rw [g2]
              unfold csvFlushBroIo at h
              unfold csvFlushBro
              by_cases hnc : a.noCompression = true
              · rw [if_pos hnc] at h ⊢; cases h; rfl
              · rw [if_neg hnc] at h ⊢
                cases hb : compressData env.E env.p m.wbro.getSamples a.comp with
                | error e => rw [hb] at h; cases h
                | ok bs => rw [hb] at h; dsimp only at h ⊢; rw [writeAll_ok (by simp) h]

theorem writeCsvIo_ok {f : Fault} {fs fs' : Fs} {o : FPath} {bs : Bytes} (h : writeCsvIo f fs o bs = (fs', .ok)) :
    ∃ k, fs' = fs.write o (bs.take k) ∧ (f.stop = none → fs' = fs.write o bs) ∧ bs.length ≤ k + 8192 := by
  unfold writeCsvIo at h
  split at h
  · cases h
  · split at h
    · rename_i h1
      have e := (congrArg Prod.fst h).symm
      exact ⟨bs.length, by rw [List.take_length]; exact e, fun _ => e, by omega⟩
    · rename_i n h1
      split at h
      · refine ⟨n, (congrArg Prod.fst h).symm, (fun h2 => by rw [h1] at h2; cases h2), ?_⟩
        have h2 := congrArg Prod.snd h
        dsimp only at h2
        split at h2
        · cases h2
        · rename_i h3
          unfold csvBuffer at h3
          omega
      · have e := (congrArg Prod.fst h).symm
        exact ⟨bs.length, by rw [List.take_length]; exact e, fun _ => e, by omega⟩

/-- **C100, csv-compressor, uncompressing.** Whatever file operations fail (`write_at` writing all it is given or failing), after a run that does not
panic every file but the CSV output is as after the undisturbed run, and the CSV output is a beginning of what it should be - all of it if the disk took all of it,
and all but at most its last 8192 bytes in any case.
(Not always all of it: `C100_refuted_csv`.) -/
theorem C100_csv_uncompress (env : CsvEnv) (a : CsvArgs) (hu : a.uncompress = true) (f : CsvFaults) (hn : f.wbro.NoShort) (fs fs' : Fs) (input : FPath)
    (h : csvRunIo env a f fs input = (fs', .ok)) : ∃ g, csvRun env a fs input = (g, .ok ()) ∧ (f.csv.stop = none → fs' = g) ∧
      (∀ q, q ≠ (a.base input).withExt "csv" → fs' q = g q) ∧
      (fs' = g ∨ ∃ x k, g ((a.base input).withExt "csv") = some x ∧ fs' ((a.base input).withExt "csv") = some (x.take k) ∧ x.length ≤ k + 8192) := by
  unfold csvRunIo at h
  unfold csvRun
  rw [if_pos hu] at h ⊢
  unfold csvUncompressIo at h
  unfold csvRunUncompress
  cases hf : fs input with
  | none => rw [hf] at h; cases h
  | some c =>
    rw [hf] at h
    dsimp only at h ⊢
    split at h
    · cases h
    cases hb : broRead c with
    | eof => rw [hb] at h; cases h
    | notBro => rw [hb] at h; cases h; exact ⟨fs, rfl, fun _ => rfl, fun _ _ => rfl, .inl rfl⟩
    | bytes bs =>
      rw [hb] at h
      dsimp only at h ⊢
      cases hd : decompressData env.E bs with
      | error e => rw [hd] at h; cases h
      | ok d =>
        rw [hd] at h
        dsimp only at h ⊢
        cases hw : WavBrro.addAll env.p .new d with
        | error e => rw [hw] at h; cases h
        | ok w =>
          rw [hw] at h
          dsimp only at h ⊢
          cases hx : fs (input.withExt "vsri") with
          | none => rw [hx] at h; cases h
          | some x =>
            rw [hx] at h
            dsimp only at h ⊢
            split at h
            · cases h
            cases hv : Vsri.loadOrPanic x with
            | error e => rw [hv] at h; cases h
            | ok v =>
              rw [hv] at h
              dsimp only [WavBrro.toFileWithData] at h ⊢
              rw [toFile_bytes]
              cases ht : (WavBrro.fromSlice d).toBytes with
              | error e => rw [ht] at h; cases h
              | ok t =>
                rw [ht] at h
                dsimp only at h ⊢
                rcases h1 : writeWbro f.wbro fs ((a.base input).withExt "wbro") t with ⟨fs1, e1⟩
                rw [h1] at h
                cases e1 with
                | err => cases h
                | panicked => cases h
                | ok =>
                  dsimp only at h
                  rw [writeWbro_ok hn h1] at h
                  cases hs : Metric.getSamples env.p ⟨w, v⟩ with
                  | error e => rw [hs] at h; cases h
                  | ok ss =>
                    rw [hs] at h
                    dsimp only at h ⊢
                    obtain ⟨k, rfl, h3, h4⟩ := writeCsvIo_ok h
                    refine ⟨_, rfl, h3, fun q hq => ?_, .inr ⟨_, k, Fs.write_same _ _ _, Fs.write_same _ _ _, h4⟩⟩
                    rw [show (Fs.write _ _ _) q = _ from if_neg hq, show (Fs.write _ _ _) q = _ from if_neg hq]

theorem writeCsvIo_some {f : Fault} {fs : Fs} {o : FPath} {bs : Bytes} {n : Nat} (hc : f.noCreate = false) (hs : f.stop = some n) (hl : n < bs.length)
    (hl' : (bs.length - 1) / 8192 * 8192 ≤ n) : writeCsvIo f fs o bs = (fs.write o (bs.take n), .ok) := by
  unfold writeCsvIo
  rw [if_neg (by simp [hc]), hs]
  dsimp only
  rw [if_pos hl, if_neg (by unfold csvBuffer; omega)]

theorem writeCsvIo_bad {f : Fault} {fs : Fs} {o : FPath} {bs : Bytes} {n : Nat} (hc : f.noCreate = false) (hs : f.stop = some n)
    (hl' : n < (bs.length - 1) / 8192 * 8192) : writeCsvIo f fs o bs = (fs.write o (bs.take n), .panicked) := by
  unfold writeCsvIo
  rw [if_neg (by simp [hc]), hs]
  dsimp only
  rw [if_pos (by omega), if_pos (by unfold csvBuffer; omega)]

/-- **C100 refuted for csv-compressor -u.** The CSV output is not flushed before the writer is dropped: for every run that writes a CSV file `x`, if the disk
has room for only a part `n` of it, the run still ends well (status 0) whenever only a piece of the last buffer is missing, and panics otherwise.
In particular (`n = 0`) a CSV output of up to 8192 bytes is lost completely without notice. -/
theorem C100_refuted_csv (env : CsvEnv) (a : CsvArgs) (hu : a.uncompress = true) (fs g : Fs) (input : FPath) (x : Bytes) (h : csvRun env a fs input = (g, .ok ()))
    (hg : g ((a.base input).withExt "csv") = some x) (n : Nat) (hl : n < x.length) (hw : ∀ c, fs input = some c → broRead c ≠ .notBro) :
    ∃ fs', csvRunIo env a { CsvFaults.calm with csv := { Fault.calm with stop := some n } } fs input =
        (fs', if (x.length - 1) / 8192 * 8192 ≤ n then .ok else .panicked) ∧
      fs' ((a.base input).withExt "csv") = some (x.take n) := by
  unfold csvRun at h
  unfold csvRunIo
  rw [if_pos hu] at h ⊢
  unfold csvRunUncompress at h
  unfold csvUncompressIo
  cases hf : fs input with
  | none => rw [hf] at h; cases h
  | some c =>
    rw [hf] at h
    dsimp only at h ⊢
    rw [if_neg (by simp [CsvFaults.calm])]
    cases hb : broRead c with
    | eof => rw [hb] at h; cases h
    | notBro => exact absurd hb (hw c hf)
    | bytes bs =>
      rw [hb] at h
      dsimp only at h ⊢
      cases hd : decompressData env.E bs with
      | error e => rw [hd] at h; cases h
      | ok d =>
        rw [hd] at h
        dsimp only at h ⊢
        cases hw : WavBrro.addAll env.p .new d with
        | error e => rw [hw] at h; cases h
        | ok w =>
          rw [hw] at h
          dsimp only at h ⊢
          cases hx : fs (input.withExt "vsri") with
          | none => rw [hx] at h; cases h
          | some y =>
            rw [hx] at h
            dsimp only at h ⊢
            rw [if_neg (by simp [CsvFaults.calm])]
            cases hv : Vsri.loadOrPanic y with
            | error e => rw [hv] at h; cases h
            | ok v =>
              rw [hv] at h
              dsimp only [WavBrro.toFileWithData] at h ⊢
              rw [toFile_bytes] at h
              cases ht : (WavBrro.fromSlice d).toBytes with
              | error e => rw [ht] at h; cases h
              | ok t =>
                rw [ht] at h
                dsimp only at h ⊢
                rw [writeWbro_calm rfl rfl rfl]
                dsimp only
                cases hs : Metric.getSamples env.p ⟨w, v⟩ with
                | error e => rw [hs] at h; cases h
                | ok ss =>
                  rw [hs] at h
                  dsimp only at h ⊢
                  obtain rfl := congrArg Prod.fst h
                  dsimp only at hg
                  rw [Fs.write_same] at hg
                  obtain rfl := Option.some.inj hg
                  refine ⟨(fs.write ((a.base input).withExt "wbro") (WavBrro.wholeFile t)).write ((a.base input).withExt "csv") ((env.writeCsv ss).take n), ?_,
                    Fs.write_same _ _ _⟩
                  split
                  · rename_i hle
                    exact writeCsvIo_some rfl rfl hl hle
                  · rename_i hle
                    exact writeCsvIo_bad rfl rfl (by omega)

/-! ### Examples -/

/-- A full disk while compressing: status 1, and the output is the 5 bytes that fitted; uncompressing them gives status 1. -/
example : (let r := runMainIo demoEnv demoArgs (fun _ => { Fault.calm with stop := some 5 }) false demoFs (.file ⟨"x", "wbro"⟩)
    decide (r.2 = 1) && decide (r.1 ⟨"x", "bro"⟩ = some [66, 82, 82, 79, 1]) &&
      decide ((runMain demoEnv { demoArgs with uncompress := true } r.1 (.file ⟨"x", "bro"⟩)).2 = 1)) = true := by decide +kernel

/-- Two files in a directory; the first attempt at the first file breaks off: status 0, both outputs, the second attempt made good. -/
example : (let fs : Fs := fun q => if q = ⟨"y", "wbro"⟩ then demoFs ⟨"x", "wbro"⟩ else demoFs q
    let r := runMainIo demoEnv demoArgs (fun k => if k = 0 then { Fault.calm with stop := some 5 } else .calm) false fs (.dir [(⟨"x", "wbro"⟩, true), (⟨"y", "wbro"⟩, true)])
    decide (r.2 = 0) && (r.1 ⟨"x", "bro"⟩).isSome && decide (r.1 ⟨"x", "bro"⟩ = r.1 ⟨"y", "bro"⟩)) = true := by decide +kernel

/-- When a directory can no longer be listed the status is 1 although every file listed was compressed. -/
example : (let r := runMainIo demoEnv demoArgs (fun _ => .calm) true demoFs (.dir [(⟨"x", "wbro"⟩, true)])
    decide (r.2 = 1) && (r.1 ⟨"x", "bro"⟩).isSome) = true := by decide +kernel

/-- An output that cannot be created: compressing ends with status 1, uncompressing with a panic; nothing changes. -/
example : (let r := runMainIo demoEnv demoArgs (fun _ => { Fault.calm with noCreate := true }) false demoFs (.file ⟨"x", "wbro"⟩)
    let s := runMain demoEnv demoArgs demoFs (.file ⟨"x", "wbro"⟩)
    let t := runMainIo demoEnv { demoArgs with uncompress := true } (fun _ => { Fault.calm with noCreate := true }) false s.1 (.file ⟨"x", "bro"⟩)
    decide (r.2 = 1) && (r.1 ⟨"x", "bro"⟩).isNone && decide (t.2 = 101) && decide (t.1 ⟨"x", "wbro"⟩ = demoFs ⟨"x", "wbro"⟩)) = true := by decide +kernel

/-- csv-compressor: the run is good, the CSV file empty. -/
example : (match csvRun demoCsvEnv (demoCsvArgs false) csvDemoFs ⟨"x", "csv"⟩ with
    | (fs1, .ok ()) =>
      let r := csvRunIo demoCsvEnv (demoCsvArgs true) { CsvFaults.calm with csv := { Fault.calm with stop := some 0 } } fs1 ⟨"x", "bro"⟩
      decide (r.2 = .ok) && decide (r.1 ⟨"x", "csv"⟩ = some []) && (r.1 ⟨"x", "wbro"⟩).isSome
    | _ => false) = true := by decide +kernel

/-- csv-compressor: a full disk while the index is written. -/
example : (let r := csvRunIo demoCsvEnv (demoCsvArgs false) { CsvFaults.calm with vsri := { Fault.calm with stop := some 4 } } csvDemoFs ⟨"x", "csv"⟩
    decide (r.2 = .panicked) && decide (r.1 ⟨"x", "vsri"⟩ = some [49, 48, 10, 51]) && (r.1 ⟨"x", "wavbro"⟩).isSome && (r.1 ⟨"x", "bro"⟩).isNone) = true := by
  decide +kernel

end Atsc
