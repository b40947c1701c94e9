import Verif.Props.Files
/- C53 and C55: exactly which compressed files are accepted, and exactly what a directory run does. -/
namespace Atsc

/-- **C53, exactly.** The compressed bytes pass the reader's format check if and only if the input had a finite sample; the others are
rejected as truncated. -/
theorem C53_exact (E : Ext) (hE : E.Lawful) (p : Profile) (data : List F64) (a : CompArgs) (ha : a.Valid) (hp : FewEnough p data) :
    ∃ bs, compressData E p data a = .ok bs ∧ (broRead bs = .bytes bs ↔ ∃ x ∈ data, x.isFinite = true) ∧
      (broRead bs = .eof ↔ ∀ x ∈ data, x.isFinite = false) := by
  by_cases h : ∃ x ∈ data, x.isFinite = true
  · obtain ⟨x, hx, hf⟩ := h
    obtain ⟨bs, h1, h2, -⟩ := C53_accepted E hE p data a ha hp x hx hf
    refine ⟨bs, h1, ⟨fun _ => ⟨x, hx, hf⟩, fun _ => h2⟩, ⟨fun h => ?_, fun h => ?_⟩⟩
    · rw [h2] at h; cases h
    · rw [h x hx] at hf; cases hf
  · have h' : ∀ x ∈ data, x.isFinite = false := fun x hx => by
      cases hf : x.isFinite
      · rfl
      · exact absurd ⟨x, hx, hf⟩ h
    obtain ⟨bs, h1, -, h3⟩ := C53_refuted_empty E p data a h'
    refine ⟨bs, h1, ⟨fun hc => ?_, fun hc => absurd hc h⟩, ⟨fun _ => h', fun _ => h3⟩⟩
    rw [h3] at hc; cases hc

/-- Each of the files is turned into its output, one after the other, from `fs` to `fs'`. -/
inductive InTurn (env : Env) (a : RunArgs) : Fs → List FPath → Fs → Prop
  | nil (fs : Fs) : InTurn env a fs [] fs
  | cons {fs fs1 fs' : Fs} {p : FPath} {ps : List FPath} : processSingle env a fs p = .ok (fs1, .ok ()) → InTurn env a fs1 ps fs' →
      InTurn env a fs (p :: ps) fs'

theorem InTurn.run {env : Env} {a : RunArgs} {fs fs' : Fs} {ps : List FPath} (h : InTurn env a fs ps fs') (rest : List FPath) :
    processDirectory (processSingle env a) fs ((ps ++ rest).map fun p => (p, true)) =
      processDirectory (processSingle env a) fs' (rest.map fun p => (p, true)) := by
  induction h with
  | nil fs => rfl
  | cons h1 _ ih => rw [List.cons_append, List.map_cons, processDirectory, if_pos rfl, h1]; exact ih

/-- Directories and other entries do not matter. -/
theorem directory_regular (env : Env) (a : RunArgs) : ∀ (entries : List (FPath × Bool)) (fs : Fs),
    processDirectory (processSingle env a) fs entries = processDirectory (processSingle env a) fs ((regularFiles entries).map fun p => (p, true))
  | [], _ => rfl
  | (p, true) :: rest, fs => by
    have hr : regularFiles ((p, true) :: rest) = p :: regularFiles rest := rfl
    rw [hr, List.map_cons, processDirectory, processDirectory, if_pos rfl, if_pos rfl]
    simp only [directory_regular env a rest]
  | (p, false) :: rest, fs => by
    have hr : regularFiles ((p, false) :: rest) = regularFiles rest := rfl
    rw [hr, processDirectory, if_neg (by simp), directory_regular env a rest]

/-- **C55, exactly.** The regular files are processed in the order of the listing, each once, until one fails or panics; that one ends the run with its
error or panic, leaving the outputs of the files before it, and none of the later files is touched.  (The listing may contain files created during the
run: it is whatever `read_dir` yields.) -/
theorem C55_exact (env : Env) (a : RunArgs) (fs : Fs) (entries : List (FPath × Bool)) :
    (∀ fs', processDirectory (processSingle env a) fs entries = .ok (fs', .ok ()) ↔ InTurn env a fs (regularFiles entries) fs') ∧
    (∀ fs' e, processDirectory (processSingle env a) fs entries = .ok (fs', .error e) ↔
      ∃ pre bad post, regularFiles entries = pre ++ bad :: post ∧ InTurn env a fs pre fs' ∧ processSingle env a fs' bad = .ok (fs', .error e)) ∧
    (∀ e, processDirectory (processSingle env a) fs entries = .error e ↔
      ∃ pre bad post fs', regularFiles entries = pre ++ bad :: post ∧ InTurn env a fs pre fs' ∧ processSingle env a fs' bad = .error e) := by
  rw [directory_regular]
  -- the three kinds of result, for a failing first file
  have fail : ∀ (fs : Fs) (bad : FPath) (post : List FPath) e, processSingle env a fs bad = .ok (fs, .error e) →
      processDirectory (processSingle env a) fs ((bad :: post).map fun p => (p, true)) = .ok (fs, .error e) := by
    intro fs bad post e h
    rw [List.map_cons, processDirectory, if_pos rfl, h]
    simp only [bind, Except.bind]
    rw [h]
  have stop : ∀ (fs : Fs) (bad : FPath) (post : List FPath) e, processSingle env a fs bad = .error e →
      processDirectory (processSingle env a) fs ((bad :: post).map fun p => (p, true)) = .error e := by
    intro fs bad post e h
    rw [List.map_cons, processDirectory, if_pos rfl, h]
    rfl
  generalize regularFiles entries = files
  -- every run is of one of the kinds
  have kinds : ∀ (files : List FPath) (fs : Fs), (∃ fs', InTurn env a fs files fs') ∨
      (∃ pre bad post fs' e, files = pre ++ bad :: post ∧ InTurn env a fs pre fs' ∧ processSingle env a fs' bad = .ok (fs', .error e)) ∨
      (∃ pre bad post fs' e, files = pre ++ bad :: post ∧ InTurn env a fs pre fs' ∧ processSingle env a fs' bad = .error e) := by
    intro files
    induction files with
    | nil => exact fun fs => .inl ⟨fs, .nil fs⟩
    | cons p ps ih =>
      intro fs
      cases h : processSingle env a fs p with
      | error e => exact .inr (.inr ⟨[], p, ps, fs, e, rfl, .nil fs, h⟩)
      | ok r =>
        obtain ⟨fs1, r⟩ := r
        cases r with
        | error e =>
          have hsame := (C61_effects env a fs fs1 p _ h).2 e rfl
          subst hsame
          exact .inr (.inl ⟨[], p, ps, _, e, rfl, .nil _, h⟩)
        | ok u =>
          rcases ih fs1 with ⟨fs', h1⟩ | ⟨pre, bad, post, fs', e, h1, h2, h3⟩ | ⟨pre, bad, post, fs', e, h1, h2, h3⟩
          · exact .inl ⟨fs', .cons h h1⟩
          · exact .inr (.inl ⟨p :: pre, bad, post, fs', e, by rw [h1]; rfl, .cons h h2, h3⟩)
          · exact .inr (.inr ⟨p :: pre, bad, post, fs', e, by rw [h1]; rfl, .cons h h2, h3⟩)
  have r1 : ∀ fs', InTurn env a fs files fs' → processDirectory (processSingle env a) fs (files.map fun p => (p, true)) = .ok (fs', .ok ()) := by
    intro fs' h
    have := h.run []
    rw [List.append_nil] at this
    rw [this]; rfl
  have r2 : ∀ fs' e, (∃ pre bad post, files = pre ++ bad :: post ∧ InTurn env a fs pre fs' ∧ processSingle env a fs' bad = .ok (fs', .error e)) →
      processDirectory (processSingle env a) fs (files.map fun p => (p, true)) = .ok (fs', .error e) := by
    rintro fs' e ⟨pre, bad, post, rfl, h1, h2⟩
    rw [h1.run (bad :: post)]
    exact fail _ _ _ _ h2
  have r3 : ∀ e, (∃ pre bad post fs', files = pre ++ bad :: post ∧ InTurn env a fs pre fs' ∧ processSingle env a fs' bad = .error e) →
      processDirectory (processSingle env a) fs (files.map fun p => (p, true)) = .error e := by
    rintro e ⟨pre, bad, post, fs', rfl, h1, h2⟩
    rw [h1.run (bad :: post)]
    exact stop _ _ _ _ h2
  refine ⟨fun fs' => ⟨fun h => ?_, r1 fs'⟩, fun fs' e => ⟨fun h => ?_, r2 fs' e⟩, fun e => ⟨fun h => ?_, r3 e⟩⟩
  · rcases kinds files fs with ⟨fs1, k⟩ | ⟨pre, bad, post, fs1, e1, k⟩ | ⟨pre, bad, post, fs1, e1, k⟩
    · rw [r1 fs1 k] at h
      have := congrArg Prod.fst (Except.ok.inj h)
      simp only at this
      rw [← this]; exact k
    · rw [r2 fs1 e1 ⟨pre, bad, post, k⟩] at h
      have := congrArg Prod.snd (Except.ok.inj h); cases this
    · rw [r3 e1 ⟨pre, bad, post, fs1, k⟩] at h; cases h
  · rcases kinds files fs with ⟨fs1, k⟩ | ⟨pre, bad, post, fs1, e1, k⟩ | ⟨pre, bad, post, fs1, e1, k⟩
    · rw [r1 fs1 k] at h
      have := congrArg Prod.snd (Except.ok.inj h); cases this
    · rw [r2 fs1 e1 ⟨pre, bad, post, k⟩] at h
      have h1 := congrArg Prod.fst (Except.ok.inj h)
      have h2 := congrArg Prod.snd (Except.ok.inj h)
      simp only [Except.error.injEq] at h1 h2
      rw [← h1, ← h2]
      exact ⟨pre, bad, post, k⟩
    · rw [r3 e1 ⟨pre, bad, post, fs1, k⟩] at h; cases h
  · rcases kinds files fs with ⟨fs1, k⟩ | ⟨pre, bad, post, fs1, e1, k⟩ | ⟨pre, bad, post, fs1, e1, k⟩
    · rw [r1 fs1 k] at h; cases h
    · rw [r2 fs1 e1 ⟨pre, bad, post, k⟩] at h; cases h
    · rw [r3 e1 ⟨pre, bad, post, fs1, k⟩] at h
      rw [← Except.error.inj h]
      exact ⟨pre, bad, post, fs1, k⟩

/-- Non-vacuity: the WBRO file comes first and is compressed, then the text file ends the run, with the compressed file in place. -/
example : okAnd (processDirectory (processSingle demoEnv demoArgs) (demoFs.write ⟨"notes", "txt"⟩ (List.replicate 20 65))
    [(⟨"x", "wbro"⟩, true), (⟨"notes", "txt"⟩, true), (⟨"y", "wbro"⟩, true)]) (fun r => decide (r.2 = .error .format) && (r.1 ⟨"x", "bro"⟩).isSome) = true := by
  decide +kernel

end Atsc
