import Verif.Spec.Eras
import Verif.Props.Programs
/- C120: programs killed at any moment and started again. -/
namespace Atsc

theorem trace_other {ι κ : Type} [DecidableEq ι] [DecidableEq κ] {progs : ι → Prog κ} (ha : ProgsApart progs) {d0 : κ → Option Bytes} {sched : List ι}
    {t : Machine ι κ} (h : Machine.Trace sched (.begin progs d0) t) {q : κ} (hq : ∀ i ∈ sched, ¬ (progs i).Writes q) : t.files q = d0 q := by
  generalize hs : Machine.begin progs d0 = s at h
  induction h with
  | nil s => subst hs; rfl
  | @step sched s t i a d he hst ih =>
    subst hs
    obtain ⟨m, g1, -⟩ := (trace_inv ha he).1 i
    exact (hst.other g1 (hq i (by simp))).trans (ih (fun k hk => hq k (by simp [hk])) rfl)

/-- A program that reads the same in two file systems stores the same. -/
theorem Prog.stores_local {κ : Type} [DecidableEq κ] : ∀ (p : Prog κ) {d e : κ → Option Bytes}, (∀ q, p.Reads q → d q = e q) →
    (p.alone d).2 = (p.alone e).2 ∧ (∀ q b, p.Stores d q b ↔ p.Stores e q b) ∧ ∀ q, d q = e q ∨ (∃ b, p.Stores d q b) → (p.alone d).1 q = (p.alone e).1 q
  | .done _, _, _, _ => ⟨rfl, fun _ _ => Iff.rfl, fun _ h => h.elim id (fun ⟨_, h⟩ => h.elim)⟩
  | .read p off len next, d, e, h => by
    have hp : d p = e p := h p (Or.inl rfl)
    have := Prog.stores_local (next ((e p).map (portion off len))) (d := d) (e := e) (fun q hq => h q (Or.inr ⟨_, hq⟩))
    rw [Prog.alone, Prog.alone, hp]
    refine ⟨this.1, fun q b => ?_, fun q hq => this.2.2 q (hq.imp id (fun ⟨b, hb⟩ => ⟨b, ?_⟩))⟩
    · rw [Prog.Stores, Prog.Stores, hp]; exact this.2.1 q b
    · rw [Prog.Stores, hp] at hb; exact hb
  | .write p c next, d, e, h => by
    have key : ∀ q, d q = e q → put d p c q = put e p c q := fun q hq => by
      unfold put; split_ifs
      · rfl
      · exact hq
    obtain ⟨h1, h2, h3⟩ := Prog.stores_local next (d := put d p c) (e := put e p c) (fun q hq => key q (h q hq))
    rw [Prog.alone, Prog.alone]
    refine ⟨h1, fun q b => ?_, fun q hq => h3 q ?_⟩
    · rw [Prog.Stores, Prog.Stores, h2 q b]
    · rcases hq with hq | ⟨b, ⟨rfl, rfl⟩ | hb⟩
      · exact Or.inl (key q hq)
      · exact Or.inl (by rw [put_same, put_same])
      · exact Or.inr ⟨b, hb⟩

/-- What killed programs leave. -/
def Left {ι κ : Type} [DecidableEq κ] (progs : ι → Prog κ) (d e : κ → Option Bytes) : Prop :=
  ∀ q, e q = d q ∨ ∃ i b n, (progs i).Stores d q b ∧ e q = some (b.take n)

theorem Prog.Stores.writes {κ : Type} [DecidableEq κ] : ∀ {p : Prog κ} {d : κ → Option Bytes} {q : κ} {b : Bytes}, p.Stores d q b → p.Writes q
  | .done _, _, _, _, h => h.elim
  | .read _ _ _ _, _, _, _, h => ⟨_, Prog.Stores.writes h⟩
  | .write _ _ _, _, _, _, h => h.elim (fun h => Or.inl h.1) (fun h => Or.inr (Prog.Stores.writes h))

theorem Left.reads {ι κ : Type} [DecidableEq ι] [DecidableEq κ] {progs : ι → Prog κ} (ha : ProgsApart progs) (hown : ∀ i q, (progs i).Writes q → ¬ (progs i).Reads q)
    {d e : κ → Option Bytes} (h : Left progs d e) (i : ι) {q : κ} (hq : (progs i).Reads q) : e q = d q := by
  rcases h q with h | ⟨k, b, n, hs, -⟩
  · exact h
  · exfalso
    by_cases hk : k = i
    · subst hk; exact hown k q hs.writes hq
    · exact (ha k i hk q hs.writes).1 hq

theorem Left.alone {ι κ : Type} [DecidableEq ι] [DecidableEq κ] {progs : ι → Prog κ} (ha : ProgsApart progs) (hown : ∀ i q, (progs i).Writes q → ¬ (progs i).Reads q)
    {d e : κ → Option Bytes} (h : Left progs d e) (i : ι) : ((progs i).alone e).2 = ((progs i).alone d).2 ∧
    (∀ q b, (progs i).Stores e q b ↔ (progs i).Stores d q b) ∧
    ∀ q, (progs i).Reads q ∨ (progs i).Writes q → ((progs i).alone e).1 q = ((progs i).alone d).1 q := by
  obtain ⟨h1, h2, h3⟩ := Prog.stores_local (progs i) (d := d) (e := e) (fun q hq => (h.reads ha hown i hq).symm)
  refine ⟨h1.symm, fun q b => (h2 q b).symm, fun q hq => (h3 q ?_).symm⟩
  rcases h q with h | ⟨k, b, n, hs, -⟩
  · exact Or.inl h.symm
  · by_cases hk : k = i
    · subst hk; exact Or.inr ⟨b, hs⟩
    · obtain ⟨a1, a2⟩ := ha k i hk q hs.writes
      exact absurd hq (fun h => h.elim a1 a2)

theorem Left.trace {ι κ : Type} [DecidableEq ι] [DecidableEq κ] {progs : ι → Prog κ} (ha : ProgsApart progs) (hown : ∀ i q, (progs i).Writes q → ¬ (progs i).Reads q)
    {d e : κ → Option Bytes} (h : Left progs d e) {sched : List ι} {t : Machine ι κ} (ht : Machine.Trace sched (.begin progs e) t) : Left progs d t.files := by
  intro q
  obtain ⟨c1, c2⟩ := C118_always progs ha e sched t ht q
  by_cases hw : ∃ i, (progs i).Writes q
  · obtain ⟨i, hi⟩ := hw
    rcases c2 i hi with k | ⟨b, n, hs, k⟩
    · rw [k]; exact h q
    · exact Or.inr ⟨i, b, n, ((h.alone ha hown i).2.1 q b).1 hs, k⟩
  · rw [c1 (fun i hi => hw ⟨i, hi⟩)]; exact h q

theorem Eras.left {ι κ : Type} [DecidableEq ι] [DecidableEq κ] {progs : ι → Prog κ} (ha : ProgsApart progs) (hown : ∀ i q, (progs i).Writes q → ¬ (progs i).Reads q)
    {d e : κ → Option Bytes} {l : List (Era ι κ)} (h : Eras progs d l e) : Left progs d e := by
  induction h with
  | start => exact fun _ => Or.inl rfl
  | era _ ht ih => exact ih.trace ha hown ht

/-- **C120, at every moment.** However often the programs have been killed and started again: a file that no program writes is as it was; a file that one writes is as
it was or holds a beginning of something that program, alone and undisturbed, stores in it. -/
theorem C120_always {ι κ : Type} [DecidableEq ι] [DecidableEq κ] (progs : ι → Prog κ) (ha : ProgsApart progs) (hown : ∀ i q, (progs i).Writes q → ¬ (progs i).Reads q)
    (d e : κ → Option Bytes) (l : List (Era ι κ)) (h : Eras progs d l e) (q : κ) : ((∀ i, ¬ (progs i).Writes q) → e q = d q) ∧
    ∀ i, (progs i).Writes q → e q = d q ∨ ∃ b n, (progs i).Stores d q b ∧ e q = some (b.take n) := by
  have hl := h.left ha hown q
  refine ⟨fun hn => hl.elim id (fun ⟨i, b, n, hs, _⟩ => absurd hs.writes (hn i)), fun i hi => hl.imp id ?_⟩
  rintro ⟨k, b, n, hs, he⟩
  by_cases hk : i = k
  · subst hk; exact ⟨b, n, hs, he⟩
  · exact absurd hs.writes (ha i k hk q hi).2

/-- **C120, the status.** A program that comes to its end has the exit status it would have had alone on the files as they were before everything. -/
theorem C120_status {ι κ : Type} [DecidableEq ι] [DecidableEq κ] (progs : ι → Prog κ) (ha : ProgsApart progs) (hown : ∀ i q, (progs i).Writes q → ¬ (progs i).Reads q)
    (d e : κ → Option Bytes) (l : List (Era ι κ)) (h : Eras progs d l e) (sched : List ι) (t : Machine ι κ) (ht : Machine.Trace sched (.begin progs e) t)
    (i : ι) (s : Nat) (he : t.doing i = .at_ (.done s)) : s = ((progs i).alone d).2 :=
  (C118_alone progs ha e sched t ht i s he).1.trans ((h.left ha hown).alone ha hown i).1

/-- **C120, the files of a program.** Once a program has come to its end (and is not started again), the files it reads and writes are as it would have left them
alone, however often it and the others have been killed before and are killed after. -/
theorem C120_finished {ι κ : Type} [DecidableEq ι] [DecidableEq κ] (progs : ι → Prog κ) (ha : ProgsApart progs) (hown : ∀ i q, (progs i).Writes q → ¬ (progs i).Reads q)
    (d e : κ → Option Bytes) (l : List (Era ι κ)) (h : Eras progs d l e) (i : ι) (hf : Finished i l) (q : κ) (hq : (progs i).Reads q ∨ (progs i).Writes q) :
    e q = ((progs i).alone d).1 q := by
  induction h with
  | start => obtain ⟨b, x, a, h, -⟩ := hf; simp at h
  | @era l e x hl ht ih =>
    obtain ⟨before, y, after, h1, ⟨s, h2⟩, h3⟩ := hf
    rcases List.eq_nil_or_concat after with rfl | ⟨after', z, rfl⟩
    · obtain ⟨-, e1⟩ := List.append_inj' h1 rfl
      cases e1
      exact ((C118_alone progs ha e _ _ ht i s h2).2 q hq).trans (((hl.left ha hown).alone ha hown i).2.2 q hq)
    · rw [List.concat_eq_append, ← List.cons_append, ← List.append_assoc] at h1
      obtain ⟨e0, e1⟩ := List.append_inj' h1 rfl
      cases e1
      have hi : i ∉ x.sched := h3 x (by simp)
      rw [trace_other ha ht (fun k hk hw => ?_)]
      · exact ih ⟨before, y, after', e0, ⟨s, h2⟩, fun w hw => h3 w (by simp [hw])⟩
      · have hki : k ≠ i := fun e => hi (e ▸ hk)
        obtain ⟨a1, a2⟩ := ha k i hki q hw
        exact hq.elim a1 a2

/-- **C120, all of them.** When every program has come to its end, the files are those of running them one after the other, undisturbed, in any order. -/
theorem C120_in_turn {ι κ : Type} [DecidableEq ι] [DecidableEq κ] (progs : ι → Prog κ) (ha : ProgsApart progs) (hown : ∀ i q, (progs i).Writes q → ¬ (progs i).Reads q)
    (d e : κ → Option Bytes) (l : List (Era ι κ)) (h : Eras progs d l e) (hf : ∀ i, Finished i l) (order : List ι) (ho : order.Nodup) (hall : ∀ i, i ∈ order) :
    e = progsInTurn progs d order := by
  obtain ⟨g1, g2⟩ := progsInTurn_spec ha (d0 := d) (l := order) (d := d) ho (fun _ _ _ _ => rfl)
  funext q
  by_cases hw : ∃ i, (progs i).Writes q
  · obtain ⟨i, hi⟩ := hw
    rw [C120_finished progs ha hown d e l h i (hf i) q (Or.inr hi)]
    exact (g1 i (hall i) q (Or.inr hi) (fun k _ hk hw => (ha k i hk q hw).2 hi)).symm
  · have hn : ∀ i, ¬ (progs i).Writes q := fun i hi => hw ⟨i, hi⟩
    rw [(C120_always progs ha hown d e l h q).1 hn, g2 q (fun i _ => hn i)]

/-- **C120, it can be finished.** However often finitely many programs have been killed, starting them once more can bring them all to their ends. -/
theorem C120_completes {ι κ : Type} [DecidableEq ι] [DecidableEq κ] [Fintype ι] (progs : ι → Prog κ) (ha : ProgsApart progs) (d e : κ → Option Bytes)
    (l : List (Era ι κ)) (h : Eras progs d l e) : ∃ x, Eras progs d (l ++ [x]) x.last.files ∧ ∀ i, Finished i (l ++ [x]) := by
  obtain ⟨more, t, h1, h2⟩ := C118_completes progs ha e [] _ (.nil _)
  exact ⟨⟨_, t⟩, .era h h1, fun i => ⟨l, _, [], rfl, h2 i, by simp⟩⟩

/-- **C120 [a program must not write what it reads].** A program that stores `b` in the file `q` can be killed when only the first `n` bytes of `b` are in it; started
again it ends as it does, alone, on the files left then. -/
theorem C120_refuted_in_place {κ : Type} [DecidableEq κ] (p : Prog κ) (d : κ → Option Bytes) (q : κ) (b : Bytes) (hs : p.Stores d q b) (n : Nat) :
    ∃ l e, Eras (fun _ : Unit => p) d l e ∧ e q = some (b.take n) ∧ (∀ r, ¬ p.Writes r → e r = d r) ∧
      ∃ sched t, Machine.Trace sched (.begin (fun _ : Unit => p) e) t ∧ t.doing () = .at_ (.done (p.alone e).2) := by
  obtain ⟨a, d', h1, h2, h3⟩ := stores_steps p d n hs
  obtain ⟨s1, t1, g1, g2, g3, -⟩ := h1.trace (i := ()) (.nil (.begin (fun _ : Unit => p) d)) rfl rfl
  subst g3
  obtain ⟨s2, t2, f1, f2, -, -⟩ := (alone_steps p t1.files).trace (i := ()) (.nil (.begin (fun _ : Unit => p) t1.files)) rfl rfl
  exact ⟨[] ++ [⟨s1, t1⟩], t1.files, .era .start g1, h2, h3, s2, t2, f1, f2⟩

/-! ### Examples -/

theorem prog_own (i : Option Bool) (q : List Char) (hw : (progAll i).Writes q) : ¬ (progAll i).Reads q := by
  intro hr
  rcases i with - | - | -
  · have ha := prog_atsc_touches "y.wbro" (by decide) (Or.inr (by decide +kernel)) q
    have h1 := ha.1 hr
    have h2 := ha.2 hw
    rw [h1] at h2
    exact absurd h2 (by decide +kernel)
  · have h1 := (prog_wav_touches q).1 hr
    have h2 := (prog_wav_touches q).2 hw
    rw [h1] at h2
    exact absurd h2 (by decide +kernel)
  · have h1 := (prog_csv_touches q).1 hr
    have h2 := (prog_csv_touches q).2 hw
    rw [h1] at h2
    exact absurd h2 (by decide +kernel)

/-- atsc, csv-compressor and wav2wbro are killed while `a.wbro` is half written, are started again and end: the files are those of one run after the other. -/
example : ∃ l e, Eras progAll progDisk l e ∧ (∀ i, Finished i l) ∧ l.length = 2 ∧ e = progsInTurn progAll progDisk [none, some true, some false] := by
  have hs : ∃ b, (progAll (some false)).Stores progDisk "a.wbro".toList b := by
    rcases alone_stores progWav.prog progDisk "a.wbro".toList with h | ⟨b, h1, -⟩
    · exact absurd h prog_clash_changes
    · exact ⟨b, h1⟩
  obtain ⟨b, hb⟩ := hs
  obtain ⟨a, d', h1, -, -⟩ := stores_steps _ progDisk 20 hb
  obtain ⟨s1, t1, g1, -⟩ := h1.trace (i := some false) (.nil (.begin progAll progDisk)) rfl rfl
  have e1 : Eras progAll progDisk ([] ++ [⟨s1, t1⟩]) t1.files := .era .start g1
  obtain ⟨x, e2, hf⟩ := C120_completes progAll prog_apart progDisk _ _ e1
  exact ⟨_, _, e2, hf, rfl, C120_in_turn progAll prog_apart prog_own progDisk _ _ e2 hf _ (by decide) (fun i => by rcases i with - | - | - <;> decide)⟩

theorem prog_self : ((progAtsc "x.bro").prog.alone walkDisk).2 = 0 ∧ ((progAtsc "x.bro").prog.alone walkDisk).1 "x.bro".toList ≠ walkDisk "x.bro".toList ∧
    ((progAtsc "x.bro").prog.alone (put walkDisk "x.bro".toList [])).2 = 1 := by decide +kernel

/-- **C120 [a program must not write what it reads], a case.** atsc on a file with the extension `bro` writes over its input: undisturbed it ends well, killed and
started again it fails. -/
theorem C120_refuted_example : ((progAtsc "x.bro").prog.alone walkDisk).2 = 0 ∧ ∃ l e, Eras (fun _ : Unit => (progAtsc "x.bro").prog) walkDisk l e ∧
    ∃ sched t, Machine.Trace sched (.begin (fun _ : Unit => (progAtsc "x.bro").prog) e) t ∧ t.doing () = .at_ (.done 1) := by
  obtain ⟨c1, c2, c3⟩ := prog_self
  refine ⟨c1, ?_⟩
  rcases alone_stores (progAtsc "x.bro").prog walkDisk "x.bro".toList with h | ⟨b, h1, -⟩
  · exact absurd h c2
  obtain ⟨l, e, g1, g2, g3, sched, t, g4, g5⟩ := C120_refuted_in_place _ walkDisk _ b h1 0
  refine ⟨l, e, g1, sched, t, g4, ?_⟩
  have he : e = put walkDisk "x.bro".toList [] := by
    have ha := prog_atsc_touches "x.bro" (by decide) (Or.inr (by decide +kernel))
    have ho : setExtension "x.bro".toList "bro".toList = "x.bro".toList := by decide +kernel
    rw [ho] at ha
    funext r
    by_cases hr : r = "x.bro".toList
    · subst hr; rw [g2, put_same]; rfl
    · rw [put_other _ _ hr]; exact g3 r (fun hw => hr ((ha r).2 hw))
  rw [g5, he]
  exact congrArg (fun s => Doing.at_ (Prog.done s)) c3

end Atsc
