import Verif.Lemmas.Path
import Verif.Props.Rerun
import Verif.Props.CsvCompressor
import Verif.Props.CommandLine
/- C110: where the outputs go. -/
namespace Atsc

/-! ### The path of an output -/

/-- **C110, the output path.** For a path that names the file `name` in the directory `dir` the output is in the same directory and called as the file
with its extension replaced (or appended, if there is none); `/` and `/.` at the end of the path are ignored: the output for a directory `out/` is
the file `out.bro` beside it. -/
theorem C110_output (s dir name stem t e : List Char) (ext : Option (List Char)) (h : Names s dir name) (hp : NameParts name stem ext) (ht : Trail t) :
    setExtension (s ++ t) e = dir ++ stem ++ '.' :: e := setExtension_names h hp ht

/-- **C110, every path.** Every path is of that form, in exactly one way, or has no file name. -/
theorem C110_every (s : List Char) :
    (NoName s ∧ ¬ ∃ dir name t, Names (dir ++ name) dir name ∧ Trail t ∧ s = dir ++ name ++ t) ∨
    (¬ NoName s ∧ ∃ dir name t stem ext, Names (dir ++ name) dir name ∧ NameParts name stem ext ∧ Trail t ∧ s = dir ++ name ++ t ∧
      ∀ dir' name' t' stem' ext', Names (dir' ++ name') dir' name' → NameParts name' stem' ext' → Trail t' → s = dir' ++ name' ++ t' →
        dir' = dir ∧ name' = name ∧ t' = t ∧ stem' = stem ∧ ext' = ext) := by
  cases hf : fileName s with
  | none =>
    refine Or.inl ⟨fileName_none_iff.mp hf, ?_⟩
    rintro ⟨dir, name, t, hn, ht, rfl⟩
    rw [fileName_names hn ht] at hf
    cases hf
  | some x =>
    obtain ⟨dir, name⟩ := x
    obtain ⟨t, ht, hn, hs⟩ := fileName_some hf
    refine Or.inr ⟨fun h => (by rw [fileName_none_iff.mpr h] at hf; cases hf), dir, name, t, _, _, hn, parts_splitDot name, ht, hs, ?_⟩
    intro dir' name' t' stem' ext' hn' hp' ht' hs'
    have h1 := fileName_names hn' ht'
    rw [← hs', hf] at h1
    obtain ⟨rfl, rfl⟩ := Prod.mk.inj (Option.some.inj h1)
    have h2 := hp'.unique (parts_splitDot _)
    exact ⟨rfl, rfl, List.append_cancel_left (hs'.symm.trans hs), h2.1, h2.2⟩

/-- **C110, no file name.** A path without file name is left as it is (so a `--output ..` is no place to write to). -/
theorem C110_none (s e : List Char) (h : NoName s) : setExtension s e = s := by
  unfold setExtension; rw [fileName_none_iff.mpr h]

/-- **C110, overwriting the input.** The output is the input itself exactly if it has that extension already. -/
theorem C110_same (s dir name stem e : List Char) (ext : Option (List Char)) (h : Names s dir name) (hp : NameParts name stem ext) :
    setExtension s e = s ↔ ext = some e := by
  have := setExtension_names (e := e) h hp .nil
  rw [List.append_nil] at this
  rw [this, h.text, List.append_assoc, List.append_right_inj]
  constructor
  · intro hn
    cases hp with
    | dotted h1 h2 h3 =>
      rw [h1] at hn
      rw [List.cons.inj (List.append_cancel_left hn) |>.2]
    | plain h1 =>
      exfalso
      have := congrArg List.length hn
      simp at this
  · rintro rfl
    cases hp with
    | dotted h1 h2 h3 => exact h1.symm

/-- **C110, shared outputs.** Two files have one output exactly if they are in the same directory and differ at most in the extension: `a.wbro` and
`a.csv` overwrite each other's `a.bro`. -/
theorem C110_shared (s1 d1 n1 m1 s2 d2 n2 m2 e : List Char) (x1 x2 : Option (List Char)) (h1 : Names s1 d1 n1) (p1 : NameParts n1 m1 x1)
    (h2 : Names s2 d2 n2) (p2 : NameParts n2 m2 x2) (he : '/' ∉ e) (hd : '.' ∉ e) (hne : e ≠ []) :
    setExtension s1 e = setExtension s2 e ↔ d1 = d2 ∧ m1 = m2 := by
  have g1 := setExtension_names (e := e) h1 p1 .nil
  have g2 := setExtension_names (e := e) h2 p2 .nil
  rw [List.append_nil] at g1 g2
  rw [g1, g2]
  constructor
  · intro h
    obtain ⟨a1, b1⟩ := names_output h1 p1 he hd hne
    obtain ⟨a2, b2⟩ := names_output h2 p2 he hd hne
    rw [h] at a1
    obtain ⟨rfl, hn⟩ := a1.unique a2
    rw [hn] at b1
    exact ⟨rfl, (b1.unique b2).1⟩
  · rintro ⟨rfl, rfl⟩; rfl

/-- **C110, files of a directory.** The path made from a directory and the name of a file in it names that file in that directory. -/
theorem C110_entry (dir name : List Char) (hs : '/' ∉ name) (hne : name ≠ []) (hh : name ≠ ['.']) (hu : name ≠ ['.', '.']) :
    ∃ d, (d = dir ∨ d = dir ++ ['/']) ∧ joinPath dir name = d ++ name ∧ Names (joinPath dir name) d name := by
  obtain ⟨d, hd, hn⟩ := names_join (dir := dir) hs hne hh hu
  exact ⟨d, hd, hn.text, hn⟩

/-! ### The rest of the model and the path texts -/

/-- The path of an `FPath`. -/
def FPath.text (p : FPath) : List Char := if p.ext = "/" then p.stem.toList else p.stem.toList ++ '.' :: p.ext.toList

theorem ofPath_eq {s dir name stem : List Char} {ext : Option (List Char)} (h : Names s dir name) (hp : NameParts name stem ext) :
    FPath.ofPath s = ⟨String.ofList (dir ++ stem), ext.elim "/" String.ofList⟩ := by
  unfold FPath.ofPath
  have := fileName_names h .nil
  rw [List.append_nil] at this
  rw [this]
  dsimp only
  rw [splitDot_parts hp]

theorem Names.ext_ne {s dir name stem e : List Char} (h : Names s dir name) (hp : NameParts name stem (some e)) : String.ofList e ≠ "/" := by
  intro he
  have h1 : e = ['/'] := by rw [← String.toList_ofList (l := e), he]; rfl
  cases hp with
  | dotted h2 _ _ => exact h.slash (by rw [h2, h1]; simp)

theorem text_ofPath {s dir name : List Char} (h : Names s dir name) : (FPath.ofPath s).text = s := by
  have hp := parts_splitDot name
  rw [ofPath_eq h hp]
  unfold FPath.text
  cases he : (splitDot name).2 with
  | none =>
    rw [he] at hp
    refine (if_pos rfl).trans ?_
    dsimp only
    rw [String.toList_ofList]
    generalize (splitDot name).1 = st at hp
    cases hp with
    | plain _ => exact h.text.symm
  | some e =>
    rw [he] at hp
    refine (if_neg (h.ext_ne hp)).trans ?_
    dsimp only [Option.elim_some]
    rw [String.toList_ofList, String.toList_ofList]
    generalize (splitDot name).1 = st at hp
    cases hp with
    | dotted h1 _ _ => rw [h.text, h1, List.append_assoc]

/-- **C110, different files.** Different paths of files are different files in the rest of the model. -/
theorem C110_distinct (s1 d1 n1 s2 d2 n2 : List Char) (h1 : Names s1 d1 n1) (h2 : Names s2 d2 n2) : FPath.ofPath s1 = FPath.ofPath s2 ↔ s1 = s2 :=
  ⟨fun h => by rw [← text_ofPath h1, h, text_ofPath h2], fun h => by rw [h]⟩

theorem ofPath_setExtension {s dir name t : List Char} {e : String} (h : Names s dir name) (ht : Trail t) (he : '/' ∉ e.toList) (hd : '.' ∉ e.toList) (hne : e ≠ "") :
    FPath.ofPath (setExtension (s ++ t) e.toList) = (FPath.ofPath (s ++ t)).withExt e := by
  have hp := parts_splitDot name
  have hne' : e.toList ≠ [] := fun h => hne (by rw [← String.ofList_toList (s := e), h])
  obtain ⟨a1, b1⟩ := names_output h hp he hd hne'
  rw [setExtension_names h hp ht, ofPath_eq a1 b1]
  unfold FPath.ofPath
  rw [fileName_names h ht]
  unfold FPath.withExt
  dsimp only [Option.elim_some]
  rw [String.ofList_toList]

/-- The files of the rest of the model are those of `disk`. -/
def Agrees (disk : Disk) (fs : Fs) : Prop := ∀ s dir name, Names s dir name → fs (FPath.ofPath s) = disk s

/-- The names in a listing are names of files. -/
def Listed (names : List (List Char × Bool)) : Prop := ∀ n ∈ names, '/' ∉ n.1 ∧ n.1 ≠ [] ∧ n.1 ≠ ['.'] ∧ n.1 ≠ ['.', '.']

theorem Agrees.write {disk : Disk} {fs : Fs} (hag : Agrees disk fs) {s dir name : List Char} (h : Names s dir name) (e : String)
    (he : '/' ∉ e.toList) (hd : '.' ∉ e.toList) (hne : e ≠ "") (b : Bytes) :
    Agrees (disk.write (setExtension s e.toList) b) (fs.write ((FPath.ofPath s).withExt e) b) := by
  intro q dq nq hq
  have hw := ofPath_setExtension (e := e) h .nil he hd hne
  rw [List.append_nil] at hw
  have hp := parts_splitDot name
  have hne' : e.toList ≠ [] := fun h => hne (by rw [← String.ofList_toList (s := e), h])
  obtain ⟨a1, _⟩ := names_output h hp he hd hne'
  have hs := setExtension_names (e := e.toList) h hp .nil
  rw [List.append_nil] at hs
  rw [← hs] at a1
  unfold Fs.write Disk.write
  rw [← hw]
  by_cases hc : q = setExtension s e.toList
  · rw [if_pos hc, if_pos (by rw [hc])]
  · rw [if_neg hc, if_neg (fun h => hc ((C110_distinct _ _ _ _ _ _ hq a1).mp h))]
    exact hag q dq nq hq

theorem single_agrees {env : Env} {a : RunArgs} {disk : Disk} {fs : Fs} {s dir name : List Char} (hag : Agrees disk fs) (h : Names s dir name) :
    (runSingle env a fs (FPath.ofPath s)).2 = (pathSingle env a disk s).2 ∧ Agrees (pathSingle env a disk s).1 (runSingle env a fs (FPath.ofPath s)).1 := by
  have hs := hag s dir name h
  unfold runSingle processSingle pathSingle
  rw [hs]
  cases disk s with
  | none => split_ifs <;> exact ⟨rfl, hag⟩
  | some c =>
    dsimp only
    split_ifs with hu hc
    · cases broRead c with
      | eof => exact ⟨rfl, hag⟩
      | notBro => exact ⟨rfl, hag⟩
      | bytes bs =>
        dsimp only
        cases decompressData env.E bs with
        | error e => exact ⟨rfl, hag⟩
        | ok d =>
          rw [ok_bind]
          dsimp only
          cases WavBrro.toFileWithData d with
          | error e => exact ⟨rfl, hag⟩
          | ok out => exact ⟨rfl, hag.write h "wbro" (by decide) (by decide) (by decide) out⟩
    · cases readCsv env a c with
      | error e => exact ⟨rfl, hag⟩
      | ok r =>
        rw [ok_bind]
        cases r with
        | error e => exact ⟨rfl, hag⟩
        | ok d =>
          dsimp only
          unfold pathCompress
          cases compressData env.E env.p d a.comp with
          | error e => exact ⟨rfl, hag⟩
          | ok bs => exact ⟨rfl, hag.write h "bro" (by decide) (by decide) (by decide) bs⟩
    · cases WavBrro.fromFile env.addr c with
      | error e => exact ⟨rfl, hag⟩
      | ok r =>
        rw [ok_bind]
        cases r with
        | ioError => exact ⟨rfl, hag⟩
        | formatError => exact ⟨rfl, hag⟩
        | samples d =>
          dsimp only
          unfold pathCompress
          cases compressData env.E env.p d a.comp with
          | error e => exact ⟨rfl, hag⟩
          | ok bs => exact ⟨rfl, hag.write h "bro" (by decide) (by decide) (by decide) bs⟩

theorem dir_agrees {env : Env} {a : RunArgs} {dir : List Char} : ∀ {names : List (List Char × Bool)} {disk : Disk} {fs : Fs}, Agrees disk fs → Listed names →
    (runDir env a fs (names.map fun n => (FPath.ofPath (joinPath dir n.1), n.2))).2 = (pathDir env a dir disk names).2 ∧
    Agrees (pathDir env a dir disk names).1 (runDir env a fs (names.map fun n => (FPath.ofPath (joinPath dir n.1), n.2))).1
  | [], disk, fs, hag, _ => ⟨rfl, hag⟩
  | (name, false) :: rest, disk, fs, hag, hl => by
    rw [List.map_cons, runDir, pathDir, if_neg (by simp), if_neg (by simp)]
    exact dir_agrees hag (fun n hn => hl n (List.mem_cons_of_mem _ hn))
  | (name, true) :: rest, disk, fs, hag, hl => by
    obtain ⟨h1, h2, h3, h4⟩ := hl _ List.mem_cons_self
    obtain ⟨d, _, hn⟩ := names_join (dir := dir) h1 h2 h3 h4
    have hrest : Listed rest := fun n hn => hl n (List.mem_cons_of_mem _ hn)
    rw [List.map_cons, runDir, pathDir, if_pos rfl, if_pos rfl]
    obtain ⟨g1, g2⟩ := single_agrees (env := env) (a := a) hag hn
    dsimp only
    cases hp : pathSingle env a disk (joinPath dir name) with
    | mk d1 e1 =>
      cases hr : runSingle env a fs (FPath.ofPath (joinPath dir name)) with
      | mk f1 e1' =>
        rw [hp, hr] at g1 g2
        dsimp only at g1 g2
        subst g1
        cases e1' with
        | ok => exact dir_agrees g2 hrest
        | panicked => exact ⟨rfl, g2⟩
        | err =>
          dsimp only
          obtain ⟨k1, k2⟩ := single_agrees (env := env) (a := a) g2 hn
          cases hp2 : pathSingle env a d1 (joinPath dir name) with
          | mk d2 e2 =>
            cases hr2 : runSingle env a f1 (FPath.ofPath (joinPath dir name)) with
            | mk f2 e2' =>
              rw [hp2, hr2] at k1 k2
              dsimp only at k1 k2
              subst k1
              cases e2' with
              | ok => exact dir_agrees k2 hrest
              | panicked => exact ⟨rfl, k2⟩
              | err => exact ⟨rfl, k2⟩

/-- **C110, the model.** Working on paths as text is working on the stems and extensions of the rest of the model: the same exit status and the same files.
Every collection of files can be seen that way. -/
theorem C110_model (env : Env) (a : RunArgs) (disk : Disk) (s : List Char) (node : Node) (h : node = .file → ∃ dir name, Names s dir name)
    (hl : ∀ names, node = .dir names → Listed names) :
    (∃ fs, Agrees disk fs) ∧
    ∀ fs, Agrees disk fs →
      (runMain env a fs (node.input s)).2 = (pathMain env a disk s node).2 ∧ Agrees (pathMain env a disk s node).1 (runMain env a fs (node.input s)).1 := by
  refine ⟨⟨fun p => disk p.text, fun q dq nq hq => by dsimp only; rw [text_ofPath hq]⟩, fun fs hag => ?_⟩
  cases node with
  | missing => exact ⟨rfl, hag⟩
  | other => exact ⟨rfl, hag⟩
  | file =>
    obtain ⟨_, _, h⟩ := h rfl
    obtain ⟨g1, g2⟩ := single_agrees (env := env) (a := a) hag h
    exact ⟨congrArg Ended.status g1, g2⟩
  | dir names =>
    obtain ⟨g1, g2⟩ := dir_agrees (env := env) (a := a) (dir := s) hag (hl names rfl)
    exact ⟨congrArg Ended.status g1, g2⟩

/-- **C110, the command.** The same from the command line: with a regular file only where the path names one (the system finds no file under `x/`, `.` or `..`) and
listings of names, a run of atsc on paths as text is the run of `atscMain` of the rest of the model. -/
theorem C110_command (env : Env) (node : List Char → Node) (hn : ∀ s, node s = .file → ∃ dir name, Names s dir name)
    (hl : ∀ s names, node s = .dir names → Listed names) (disk : Disk) (fs : Fs) (hag : Agrees disk fs) (ts : List Tok) :
    (atscMain env (fun s => (node s).input s) fs ts).2 = (pathAtsc env node disk ts).2 ∧
    Agrees (pathAtsc env node disk ts).1 (atscMain env (fun s => (node s).input s) fs ts).1 := by
  unfold atscMain pathAtsc
  cases atscParse ts with
  | error s => exact ⟨rfl, hag⟩
  | ok a => exact (C110_model env a.run disk a.input (node a.input) (hn a.input) (hl a.input)).2 fs hag

/-! ### Runs -/

/-- The extension of the outputs. -/
def RunArgs.outExt (a : RunArgs) : List Char := if a.uncompress then "wbro".toList else "bro".toList

/-- The name of the output for the file `name`. -/
def OutName (a : RunArgs) (name o : List Char) : Prop := ∃ stem ext, NameParts name stem ext ∧ o = stem ++ '.' :: a.outExt

theorem outExt_ok (a : RunArgs) : '/' ∉ a.outExt ∧ '.' ∉ a.outExt ∧ a.outExt ≠ [] := by
  unfold RunArgs.outExt
  split_ifs <;> exact ⟨by decide, by decide, by decide⟩

theorem ofPath_output {a : RunArgs} {s dir name stem : List Char} {ext : Option (List Char)} (h : Names s dir name) (hp : NameParts name stem ext) :
    FPath.ofPath (dir ++ stem ++ '.' :: a.outExt) = outputPath a (FPath.ofPath s) := by
  obtain ⟨e1, e2, e3⟩ := outExt_ok a
  obtain ⟨a1, b1⟩ := names_output h hp e1 e2 e3
  rw [ofPath_eq a1 b1, ofPath_eq h hp]
  unfold outputPath RunArgs.outExt
  split_ifs <;> rfl

theorem pathSingle_cases (env : Env) (a : RunArgs) (disk : Disk) (s : List Char) :
    ((pathSingle env a disk s).2 ≠ .ok ∧ (pathSingle env a disk s).1 = disk) ∨
    ((pathSingle env a disk s).2 = .ok ∧ ∃ c, disk s = some c ∧
      ((Skipped a c ∧ (pathSingle env a disk s).1 = disk) ∨
        ∃ b, Output env a c b ∧ (pathSingle env a disk s).1 = disk.write (setExtension s a.outExt) b)) := by
  unfold pathSingle
  cases hc : disk s with
  | none => exact Or.inl ⟨by simp, rfl⟩
  | some c =>
    dsimp only
    split_ifs with hu hv
    · have hx : a.outExt = "wbro".toList := if_pos hu
      rw [hx]
      cases hb : broRead c with
      | eof => exact Or.inl ⟨by simp, rfl⟩
      | notBro =>
        refine Or.inr ⟨rfl, c, rfl, Or.inl ⟨⟨hu, ?_⟩, rfl⟩⟩
        unfold broRead at hb
        split_ifs at hb with h1 h2
        exact ⟨by omega, h2⟩
      | bytes bs =>
        have hb' : 12 ≤ c.length ∧ c.take 4 = [66, 82, 82, 79] ∧ bs = c := by
          unfold broRead at hb
          split_ifs at hb with h1 h2
          · exact ⟨by omega, h2, (by cases hb; rfl)⟩
        obtain ⟨h1, h2, rfl⟩ := hb'
        dsimp only
        cases hd : decompressData env.E bs with
        | error e => exact Or.inl ⟨by simp, rfl⟩
        | ok d =>
          dsimp only
          cases hw : WavBrro.toFileWithData d with
          | error e => exact Or.inl ⟨by simp, rfl⟩
          | ok out => exact Or.inr ⟨rfl, bs, rfl, Or.inr ⟨out, .uncompress hu h1 h2 hd hw, rfl⟩⟩
    · have hu' : a.uncompress = false := by simpa using hu
      have hx : a.outExt = "bro".toList := if_neg hu
      rw [hx]
      cases hr : readCsv env a c with
      | error e => exact Or.inl ⟨by simp, rfl⟩
      | ok r =>
        cases r with
        | error e => exact Or.inl ⟨by simp, rfl⟩
        | ok d =>
          dsimp only
          unfold pathCompress
          cases hd : compressData env.E env.p d a.comp with
          | error e => exact Or.inl ⟨by simp, rfl⟩
          | ok bs => exact Or.inr ⟨rfl, c, rfl, Or.inr ⟨bs, .csv hu' hv hr hd, rfl⟩⟩
    · have hu' : a.uncompress = false := by simpa using hu
      have hv' : a.csv = false := by simpa using hv
      have hx : a.outExt = "bro".toList := if_neg hu
      rw [hx]
      cases hr : WavBrro.fromFile env.addr c with
      | error e => exact Or.inl ⟨by simp, rfl⟩
      | ok r =>
        cases r with
        | ioError => exact Or.inl ⟨by simp, rfl⟩
        | formatError => exact Or.inl ⟨by simp, rfl⟩
        | samples d =>
          dsimp only
          unfold pathCompress
          cases hd : compressData env.E env.p d a.comp with
          | error e => exact Or.inl ⟨by simp, rfl⟩
          | ok bs => exact Or.inr ⟨rfl, c, rfl, Or.inr ⟨bs, .wbro hu' hv' hr hd, rfl⟩⟩

/-- **C110, one file.** A run of atsc on the file `name` in the directory `dir`: if the exit status is 0 the content the program should produce is
now in the file of that directory called as the input with the extension replaced or appended, and every other file is as it was (a `-u` run passes over a
file that is not a BRRO file and changes nothing); otherwise no file has changed. -/
theorem C110_file (env : Env) (a : RunArgs) (disk : Disk) (s dir name stem : List Char) (ext : Option (List Char)) (h : Names s dir name)
    (hp : NameParts name stem ext) :
    ((pathMain env a disk s .file).2 ≠ 0 → (pathMain env a disk s .file).1 = disk) ∧
    ((pathMain env a disk s .file).2 = 0 → ∃ c, disk s = some c ∧
      ((Skipped a c ∧ (pathMain env a disk s .file).1 = disk) ∨
        ∃ b, Output env a c b ∧
          ∀ q, (pathMain env a disk s .file).1 q = if q = dir ++ stem ++ '.' :: (if a.uncompress then "wbro".toList else "bro".toList) then some b else disk q)) := by
  have he := setExtension_names (e := a.outExt) h hp .nil
  rw [List.append_nil] at he
  have hc := pathSingle_cases env a disk s
  rw [he] at hc
  unfold pathMain
  dsimp only
  rw [status_zero, Ne, status_zero]
  rcases hc with ⟨h1, h2⟩ | ⟨h1, c, h2, h3⟩
  · exact ⟨fun _ => h2, fun h => absurd h h1⟩
  · refine ⟨fun h => absurd h1 h, fun _ => ⟨c, h2, ?_⟩⟩
    rcases h3 with h3 | ⟨b, h3, h4⟩
    · exact Or.inl h3
    · exact Or.inr ⟨b, h3, fun q => by rw [h4]; rfl⟩

theorem pathDir_changes {env : Env} {a : RunArgs} {dir : List Char} : ∀ {names : List (List Char × Bool)} {disk : Disk} {q : List Char}, Listed names →
    (pathDir env a dir disk names).1 q ≠ disk q → ∃ name o, (name, true) ∈ names ∧ OutName a name o ∧ q = joinPath dir o
  | [], disk, q, _, h => absurd rfl h
  | (name, false) :: rest, disk, q, hl, h => by
    rw [pathDir, if_neg (by simp)] at h
    obtain ⟨n, o, h1, h2⟩ := pathDir_changes (fun n hn => hl n (List.mem_cons_of_mem _ hn)) h
    exact ⟨n, o, List.mem_cons_of_mem _ h1, h2⟩
  | (name, true) :: rest, disk, q, hl, h => by
    by_cases hq : ∃ o, OutName a name o ∧ q = joinPath dir o
    · obtain ⟨o, ho⟩ := hq
      exact ⟨name, o, List.mem_cons_self, ho⟩
    · obtain ⟨h1, h2, h3, h4⟩ := hl _ List.mem_cons_self
      have hrest : Listed rest := fun n hn => hl n (List.mem_cons_of_mem _ hn)
      have one : ∀ d : Disk, (pathSingle env a d (joinPath dir name)).1 q = d q := by
        intro d
        obtain ⟨d', hd', hn⟩ := names_join (dir := dir) h1 h2 h3 h4
        have hp := parts_splitDot name
        have he := setExtension_names (e := a.outExt) hn hp .nil
        rw [List.append_nil] at he
        rcases pathSingle_cases env a d (joinPath dir name) with ⟨_, k⟩ | ⟨_, c, _, ⟨_, k⟩ | ⟨b, _, k⟩⟩
        · rw [k]
        · rw [k]
        · rw [k]
          unfold Disk.write
          refine if_neg fun hx => hq ⟨_, ⟨_, _, hp, rfl⟩, ?_⟩
          rw [hx, he]
          have ht := hn.text
          unfold joinPath at ht ⊢
          split_ifs at ht ⊢ with hj
          · rw [List.append_cancel_right ht, List.append_assoc]
          · have e : dir ++ '/' :: name = (dir ++ ['/']) ++ name := by simp
            rw [e] at ht
            rw [← List.append_cancel_right ht]
            simp
      have fwd : ∀ d : Disk, d q = disk q → (pathDir env a dir d rest).1 q ≠ disk q → ∃ n o, (n, true) ∈ (name, true) :: rest ∧ OutName a n o ∧ q = joinPath dir o := by
        intro d hd hne
        rw [← hd] at hne
        obtain ⟨n, o, k1, k2⟩ := pathDir_changes hrest hne
        exact ⟨n, o, List.mem_cons_of_mem _ k1, k2⟩
      have o1 := one disk
      rw [pathDir, if_pos rfl] at h
      cases hp : pathSingle env a disk (joinPath dir name) with
      | mk d1 e1 =>
        rw [hp] at h o1
        dsimp only at o1
        cases e1 with
        | ok => exact fwd d1 o1 h
        | panicked => exact absurd o1 h
        | err =>
          dsimp only at h
          have o2 := one d1
          cases hp2 : pathSingle env a d1 (joinPath dir name) with
          | mk d2 e2 =>
            rw [hp2] at h o2
            dsimp only at o2
            cases e2 with
            | ok => exact fwd d2 (o2.trans o1) h
            | panicked => exact absurd (o2.trans o1) h
            | err => exact absurd (o2.trans o1) h

/-- **C110, a directory.** A run of atsc on a directory, however it ends, changes only files of that directory itself, and of these only the ones called
as a regular file listed there with the extension replaced or appended. -/
theorem C110_directory (env : Env) (a : RunArgs) (disk : Disk) (dir : List Char) (names : List (List Char × Bool)) (hl : Listed names) (q : List Char)
    (hq : (pathMain env a disk dir (.dir names)).1 q ≠ disk q) :
    ∃ name o, (name, true) ∈ names ∧ OutName a name o ∧ '/' ∉ o ∧ q = joinPath dir o := by
  obtain ⟨n, o, h1, h2, h3⟩ := pathDir_changes hl hq
  refine ⟨n, o, h1, h2, ?_, h3⟩
  obtain ⟨stem, ext, hp, rfl⟩ := h2
  intro hc
  rcases List.mem_append.mp hc with hc | hc
  · exact (hl _ h1).1 (hp.stem_sub _ hc)
  · rcases List.mem_cons.mp hc with hc | hc
    · exact absurd hc (by decide)
    · exact (outExt_ok a).1 hc

/-- **C110, a directory that succeeds.** If a run on a directory ends with exit status 0, every regular file listed has been processed: what the program
should produce from it is in the file of that directory called as it with the extension replaced or appended - provided no two of the files share that name and none
of them is the output of another. -/
theorem C110_directory_done (env : Env) (a : RunArgs) (disk : Disk) (dir : List Char) (names : List (List Char × Bool)) (hl : Listed names)
    (hs : (names.filter (·.2)).Pairwise fun m n => ∀ o p, OutName a m.1 o → OutName a n.1 p → o ≠ p ∧ o ≠ n.1 ∧ p ≠ m.1)
    (h0 : (pathMain env a disk dir (.dir names)).2 = 0) (name : List Char) (hn : (name, true) ∈ names) :
    ∃ c, disk (joinPath dir name) = some c ∧
      (¬ Skipped a c → ∃ b, Output env a c b ∧ ∀ o, OutName a name o → (pathMain env a disk dir (.dir names)).1 (joinPath dir o) = some b) := by
  have key : ∀ m, (m ∈ names) → ∃ d, (∀ x, joinPath dir x = d ++ x) ∧ Names (joinPath dir m.1) d m.1 := by
    intro m hm
    obtain ⟨h1, h2, h3, h4⟩ := hl m hm
    obtain ⟨d, _, hn⟩ := names_join (dir := dir) h1 h2 h3 h4
    refine ⟨d, fun x => ?_, hn⟩
    have ht := hn.text
    unfold joinPath at ht ⊢
    split_ifs at ht ⊢ with hj
    · rw [List.append_cancel_right ht]
    · have e : dir ++ '/' :: m.1 = (dir ++ ['/']) ++ m.1 := by simp
      rw [e] at ht
      rw [← List.append_cancel_right ht]
      simp
  have out : ∀ m ∈ names, ∀ o, OutName a m.1 o → FPath.ofPath (joinPath dir o) = outputPath a (FPath.ofPath (joinPath dir m.1)) ∧
      ∃ d, Names (joinPath dir o) d o := by
    intro m hm o ho
    obtain ⟨d, hd, hn⟩ := key m hm
    obtain ⟨st, ex, hp, rfl⟩ := ho
    have := ofPath_output (a := a) hn hp
    obtain ⟨e1, e2, e3⟩ := outExt_ok a
    obtain ⟨a1, _⟩ := names_output hn hp e1 e2 e3
    rw [hd, ← List.append_assoc]
    exact ⟨this, d, a1⟩
  obtain ⟨⟨fs, hag⟩, hall⟩ := C110_model env a disk dir (.dir names) (fun h => by cases h) (fun ns h => by cases h; exact hl)
  obtain ⟨g1, g2⟩ := hall fs hag
  rw [h0] at g1
  have hreg : regularFiles (names.map fun n => (FPath.ofPath (joinPath dir n.1), n.2)) =
      (names.filter (·.2)).map fun n => FPath.ofPath (joinPath dir n.1) := by
    unfold regularFiles
    rw [List.filter_map, List.map_map]
    rfl
  have hsep : Separate a (regularFiles (names.map fun n => (FPath.ofPath (joinPath dir n.1), n.2))) := by
    rw [hreg]
    unfold Separate
    rw [List.pairwise_map]
    refine hs.imp_of_mem ?_
    intro m n hm hn hmn
    have hm' := (List.mem_filter.mp hm).1
    have hn' := (List.mem_filter.mp hn).1
    have om : OutName a m.1 _ := ⟨_, _, parts_splitDot m.1, rfl⟩
    have on : OutName a n.1 _ := ⟨_, _, parts_splitDot n.1, rfl⟩
    obtain ⟨h1, h2, h3⟩ := hmn _ _ om on
    obtain ⟨k1, d1, k2⟩ := out m hm' _ om
    obtain ⟨l1, d2, l2⟩ := out n hn' _ on
    obtain ⟨e1, q1, q2⟩ := key m hm'
    obtain ⟨e2, r1, r2⟩ := key n hn'
    rw [← k1, ← l1]
    refine ⟨fun h => h1 ?_, fun h => h2 ?_, fun h => h3 ?_⟩
    · have := (C110_distinct _ _ _ _ _ _ k2 l2).mp h
      rw [q1, q1] at this
      exact List.append_cancel_left this
    · have := (C110_distinct _ _ _ _ _ _ k2 r2).mp h
      rw [q1, q1] at this
      exact List.append_cancel_left this
    · have := (C110_distinct _ _ _ _ _ _ l2 q2).mp h
      rw [q1, q1] at this
      exact List.append_cancel_left this
  obtain ⟨c88, _⟩ := C88_directory env a fs _ hsep g1
  obtain ⟨e, q1, q2⟩ := key _ hn
  obtain ⟨c, hc, hr⟩ := c88 (FPath.ofPath (joinPath dir name)) (by
    rw [hreg]
    exact List.mem_map.mpr ⟨(name, true), List.mem_filter.mpr ⟨hn, rfl⟩, rfl⟩)
  refine ⟨c, by rw [← hag _ _ _ q2]; exact hc, fun hsk => ?_⟩
  obtain ⟨b, hb1, hb2⟩ := hr hsk
  refine ⟨b, hb1, fun o ho => ?_⟩
  obtain ⟨k1, d1, k2⟩ := out _ hn o ho
  rw [← g2 _ _ _ k2, k1]
  exact hb2

/-- The extensions of the files csv-compressor may write, from what its command line says. -/
def CsvExt (said : Said CsvKey) (e : List Char) : Prop :=
  ((∃ v, (.uncompress, v) ∈ said) ∧ (e = "wbro".toList ∨ e = "csv".toList)) ∨
  ((∀ v, (.uncompress, v) ∉ said) ∧
    ((e = "bro".toList ∧ ∀ v, (.noCompression, v) ∉ said) ∨ (e = "vsri".toList ∧ ∃ v, (.outputVsri, v) ∈ said) ∨
      (e = "wavbro".toList ∧ ∃ v, (.outputWavbrro, v) ∈ said)))

/-- **C110, csv-compressor.** A run of csv-compressor changes only files called as the `--output` path - or, without one, the input - with the extension
replaced or appended, in the same directory; a `/` at the end of the path is ignored, so `--output out/` writes `out.bro`, not a file in `out`. -/
theorem C110_csv (env : CsvEnv) (isFile : List Char → Bool) (fs : Fs) (ts : List Tok) (said : Said CsvKey) (hline : Line csvManual ts said)
    (ho : csvManual.InOrder said) (o s dir name stem t : List Char) (ext : Option (List Char))
    (hb : (.output, o) ∈ said ∨ ((∀ v, (.output, v) ∉ said) ∧ (.input, o) ∈ said))
    (hot : o = s ++ t) (ht : Trail t) (h : Names s dir name) (hp : NameParts name stem ext) (q dq nq : List Char) (hq : Names q dq nq)
    (hch : (csvMain env FPath.ofPath isFile fs ts).1 (FPath.ofPath q) ≠ fs (FPath.ofPath q)) :
    ∃ e, q = dir ++ stem ++ '.' :: e ∧ CsvExt said e := by
  obtain ⟨m1, m2, m3⟩ := C104_csv_main env FPath.ofPath isFile fs ts
  cases hr : csvParse FPath.ofPath ts with
  | error st => rw [m1 st hr] at hch; exact absurd rfl hch
  | ok x =>
    obtain ⟨i, a⟩ := x
    cases hf : isFile i with
    | false => rw [m2 i a hr hf] at hch; exact absurd rfl hch
    | true =>
      rw [m3 i a hr hf] at hch
      have hask : CsvAsksFor FPath.ofPath said i a := by
        have hrun := (run_iff csv_described ts said).2 ⟨hline, ho⟩
        unfold csvParse at hr
        rw [hrun] at hr
        exact (csv_asks FPath.ofPath ho i a).2 hr
      have uniq : ∀ k v w, (k, v) ∈ said → (k, w) ∈ said → v = w := fun k v w h1 h2 =>
        (Prod.mk.inj (List.inj_on_of_nodup_map ho.2 h1 h2 rfl)).2
      have hbase : a.output.getD (FPath.ofPath i) = FPath.ofPath o := by
        rcases hask.output with ⟨v, hv, he⟩ | ⟨hv, he⟩
        · rw [he]
          rcases hb with hb | ⟨hb, _⟩
          · rw [uniq _ _ _ hv hb]; rfl
          · exact absurd hv (hb v)
        · rw [he]
          rcases hb with hb | ⟨_, hb⟩
          · exact absurd hb (hv o)
          · rw [uniq _ _ _ hask.input hb]; rfl
      have hst : (a.output.getD (FPath.ofPath i)).stem = String.ofList (dir ++ stem) := by
        rw [hbase, hot]
        unfold FPath.ofPath
        rw [fileName_names h ht]
        dsimp only
        rw [splitDot_parts hp]
      have hmay : a.MayWrite (FPath.ofPath i) (FPath.ofPath q) := by
        by_contra hc
        exact hch (C72_effects env a fs _ _ hc)
      have fin : ∀ e : String, '/' ∉ e.toList → '.' ∉ e.toList → e.toList ≠ [] → FPath.ofPath q = ⟨(a.output.getD (FPath.ofPath i)).stem, e⟩ →
          q = dir ++ stem ++ '.' :: e.toList := by
        intro e h1 h2 h3 he
        obtain ⟨a1, b1⟩ := names_output h hp h1 h2 h3
        refine (C110_distinct _ _ _ _ _ _ hq a1).mp ?_
        rw [he, hst, ofPath_eq a1 b1]
        dsimp only [Option.elim_some]
        rw [String.ofList_toList]
      unfold CsvArgs.MayWrite at hmay
      dsimp only at hmay
      have neg : ∀ {k : CsvKey} {b : Bool}, Flagged said k b → b = false → ∀ v, (k, v) ∉ said := fun hfl hb v hv => by
        have := hfl.2 ⟨v, hv⟩
        rw [hb] at this
        cases this
      cases hu : a.uncompress with
      | true =>
        rw [if_pos hu] at hmay
        have hsaid := hask.uncompress.1 hu
        rcases hmay with hm | hm
        · exact ⟨_, fin "wbro" (by decide) (by decide) (by decide) hm, Or.inl ⟨hsaid, Or.inl rfl⟩⟩
        · exact ⟨_, fin "csv" (by decide) (by decide) (by decide) hm, Or.inl ⟨hsaid, Or.inr rfl⟩⟩
      | false =>
        rw [if_neg (by rw [hu]; decide)] at hmay
        have hsaid := neg hask.uncompress hu
        rcases hmay with ⟨hm, hx⟩ | ⟨hm, hx⟩ | ⟨hm, hx⟩
        · exact ⟨_, fin "bro" (by decide) (by decide) (by decide) hm, Or.inr ⟨hsaid, Or.inl ⟨rfl, neg hask.noCompression hx⟩⟩⟩
        · exact ⟨_, fin "vsri" (by decide) (by decide) (by decide) hm, Or.inr ⟨hsaid, Or.inr (Or.inl ⟨rfl, hask.outputVsri.1 hx⟩)⟩⟩
        · exact ⟨_, fin "wavbro" (by decide) (by decide) (by decide) hm, Or.inr ⟨hsaid, Or.inr (Or.inr ⟨rfl, hask.outputWavbrro.1 hx⟩)⟩⟩

/-! ### Examples -/

example : setExtension "data/run.1".toList "bro".toList = "data/run.bro".toList ∧ setExtension "out/".toList "bro".toList = "out.bro".toList ∧
    setExtension "out/./".toList "bro".toList = "out.bro".toList ∧ setExtension ".wbro".toList "bro".toList = ".wbro.bro".toList ∧
    setExtension "x.".toList "bro".toList = "x.bro".toList ∧ setExtension "x".toList "bro".toList = "x.bro".toList ∧
    setExtension "/..".toList "bro".toList = "/..".toList ∧ setExtension "./".toList "bro".toList = "./".toList ∧
    setExtension "a.tar.gz".toList "bro".toList = "a.tar.bro".toList ∧ setExtension "..a".toList "bro".toList = "..bro".toList := by decide

example : Names "data/run.1".toList "data/".toList "run.1".toList ∧ NameParts "run.1".toList "run".toList (some "1".toList) ∧ Trail ['/'] ∧ NoName "a/..".toList :=
  ⟨⟨by decide, Or.inr ⟨"data".toList, by decide⟩, by decide, by decide, by decide, by decide⟩, .dotted (by decide) (by decide) (by decide), .slash .nil,
    .up (dir := "a/".toList) (t := []) (Or.inr ⟨"a".toList, by decide⟩) .nil⟩

example : joinPath "data".toList "x.wbro".toList = "data/x.wbro".toList ∧ joinPath "data/".toList "x.wbro".toList = "data/x.wbro".toList ∧
    joinPath [] "x.wbro".toList = "x.wbro".toList := by decide

/-- A WBRO file in a directory, as text. -/
def pathDisk : Disk := fun q => if q = "data/x.y.wbro".toList then (WavBrro.toFileWithData [F64.lit 5, FP.nan, F64.lit 5, F64.lit (-7)]).toOption else none

/-- A run on it ends with status 0 and writes `data/x.y.bro`; a run on the directory does the same. -/
example : (pathMain demoEnv demoArgs pathDisk "data/x.y.wbro".toList .file).2 = 0 ∧
    ((pathMain demoEnv demoArgs pathDisk "data/x.y.wbro".toList .file).1 "data/x.y.bro".toList).isSome = true ∧
    (pathMain demoEnv demoArgs pathDisk "data".toList (.dir [("sub.1".toList, false), ("x.y.wbro".toList, true)])).2 = 0 ∧
    (pathMain demoEnv demoArgs pathDisk "data".toList (.dir [("sub.1".toList, false), ("x.y.wbro".toList, true)])).1 "data/x.y.bro".toList ≠ pathDisk "data/x.y.bro".toList := by
  decide +kernel

example : Listed [("sub.1".toList, false), ("x.y.wbro".toList, true)] := by unfold Listed; decide

/-- csv-compressor with `--output out/ x.csv` writes `out.bro`. -/
example : (csvMain demoCsvEnv FPath.ofPath (fun s => s = "x.csv".toList) csvDemoFs ["--output".toList, "out/".toList, "x.csv".toList]).1 (FPath.ofPath "out.bro".toList) ≠
    csvDemoFs (FPath.ofPath "out.bro".toList) := by decide +kernel

end Atsc
