import Verif.Spec.Programs
import Verif.Props.Walk
import Mathlib.Data.Fintype.Option
/- C118: runs of atsc, csv-compressor and wav2wbro at the same time. -/
namespace Atsc

/-- A program touches a file. -/
def Prog.Mine {κ : Type} (p : Prog κ) (q : κ) : Prop := p.Reads q ∨ p.Writes q

/-- A bound on the number of steps of a program that runs alone. -/
def Prog.cost {κ : Type} [DecidableEq κ] : Prog κ → (κ → Option Bytes) → Nat
  | .done _, _ => 0
  | .read p off len next, v => 2 + ((v p).map (portion off len)).elim 0 List.length + (next ((v p).map (portion off len))).cost v
  | .write p c next, v => 2 + c.length + next.cost (put v p c)

theorem put_same {κ : Type} [DecidableEq κ] (d : κ → Option Bytes) (p : κ) (b : Bytes) : put d p b p = some b := if_pos rfl
theorem put_other {κ : Type} [DecidableEq κ] (d : κ → Option Bytes) {p q : κ} (b : Bytes) (h : q ≠ p) : put d p b q = d q := if_neg h

theorem Prog.alone_other {κ : Type} [DecidableEq κ] : ∀ (p : Prog κ) {d : κ → Option Bytes} {q : κ}, ¬ p.Writes q → (p.alone d).1 q = d q
  | .done _, _, _, _ => rfl
  | .read _ _ _ next, _, _, h => Prog.alone_other (next _) (fun hw => h ⟨_, hw⟩)
  | .write _ _ next, _, _, h => (Prog.alone_other next (fun hw => h (Or.inr hw))).trans (put_other _ _ (fun e => h (Or.inl e)))

/-- What a program does depends only on the files it touches. -/
theorem Prog.alone_local {κ : Type} [DecidableEq κ] : ∀ (p : Prog κ) {d e : κ → Option Bytes}, (∀ q, p.Mine q → d q = e q) →
    (p.alone d).2 = (p.alone e).2 ∧ ∀ q, d q = e q → (p.alone d).1 q = (p.alone e).1 q
  | .done _, _, _, _ => ⟨rfl, fun _ h => h⟩
  | .read p off len next, d, e, h => by
    have hp : d p = e p := h p (Or.inl (Or.inl rfl))
    rw [Prog.alone, Prog.alone, hp]
    exact Prog.alone_local (next _) (fun q hq => h q (hq.elim (fun hr => Or.inl (Or.inr ⟨_, hr⟩)) (fun hw => Or.inr ⟨_, hw⟩)))
  | .write p c next, d, e, h => by
    rw [Prog.alone, Prog.alone]
    have key : ∀ q, d q = e q → put d p c q = put e p c q := fun q hq => by
      unfold put; split_ifs
      · rfl
      · exact hq
    obtain ⟨h1, h2⟩ := Prog.alone_local next (d := put d p c) (e := put e p c)
      (fun q hq => key q (h q (hq.elim (fun hr => Or.inl hr) (fun hw => Or.inr (Or.inr hw)))))
    exact ⟨h1, fun q hq => h2 q (key q hq)⟩

/-- The rest of a program touches no more files. -/
structure Prog.Part {κ : Type} [DecidableEq κ] (p p0 : Prog κ) (v d0 : κ → Option Bytes) : Prop where
  reads : ∀ q, p.Reads q → p0.Reads q
  writes : ∀ q, p.Writes q → p0.Writes q
  stores : ∀ q b, p.Stores v q b → p0.Stores d0 q b
  same : p.alone v = p0.alone d0
  old : ∀ q, v q = d0 q ∨ ∃ b, p0.Stores d0 q b ∧ v q = some b

/-- What is known when the program `p0`, started on the files `d0`, has got somewhere: alone it would have the files `v` there; `m` bounds the steps to come. -/
inductive Doing.Inv {κ : Type} [DecidableEq κ] (p0 : Prog κ) (d0 d : κ → Option Bytes) : Doing κ → Nat → Prop
  | at_ {p : Prog κ} (v : κ → Option Bytes) : p.Part p0 v d0 → (∀ q, p0.Mine q → d q = v q) → Doing.Inv p0 d0 d (.at_ p) (p.cost v)
  | reading {p : κ} {off : Nat} {len : Option Nat} {got : Bytes} {next : Option Bytes → Prog κ} (v : κ → Option Bytes) (c : Bytes) :
      (Prog.read p off len next).Part p0 v d0 → (∀ q, p0.Mine q → d q = v q) → v p = some c → got.length ≤ (portion off len c).length →
      got = (portion off len c).take got.length →
      Doing.Inv p0 d0 d (.reading p off len got next) (1 + ((portion off len c).length - got.length) + (next (some (portion off len c))).cost v)
  | writing {p : κ} {pos : Nat} {rest : Bytes} {next : Prog κ} (v : κ → Option Bytes) (c : Bytes) :
      (Prog.write p c next).Part p0 v d0 → (∀ q, p0.Mine q → q ≠ p → d q = v q) → pos ≤ c.length → d p = some (c.take pos) → rest = c.drop pos →
      Doing.Inv p0 d0 d (.writing p pos rest next) (1 + rest.length + next.cost (put v p c))

theorem Doing.Inv.first {κ : Type} [DecidableEq κ] (p : Prog κ) (d : κ → Option Bytes) : Doing.Inv p d d (.at_ p) (p.cost d) :=
  .at_ d ⟨fun _ h => h, fun _ h => h, fun _ _ h => h, rfl, fun _ => Or.inl rfl⟩ (fun _ _ => rfl)

theorem Doing.Inv.congr {κ : Type} [DecidableEq κ] {p0 : Prog κ} {d0 d e : κ → Option Bytes} {a : Doing κ} {m : Nat} (h : Doing.Inv p0 d0 d a m)
    (hd : ∀ q, p0.Mine q → e q = d q) : Doing.Inv p0 d0 e a m := by
  cases h with
  | at_ v h1 h2 => exact .at_ v h1 (fun q hq => (hd q hq).trans (h2 q hq))
  | reading v c h1 h2 h3 h4 h5 => exact .reading v c h1 (fun q hq => (hd q hq).trans (h2 q hq)) h3 h4 h5
  | writing v c h1 h2 h3 h4 h5 =>
    exact .writing v c h1 (fun q hq hne => (hd q hq).trans (h2 q hq hne)) h3 ((hd _ (Or.inr (h1.writes _ (Or.inl rfl)))).trans h4) h5

theorem Doing.Step.other {κ : Type} [DecidableEq κ] {p0 : Prog κ} {d0 d d' : κ → Option Bytes} {a a' : Doing κ} {m : Nat} (h : a.Step d a' d')
    (hi : Doing.Inv p0 d0 d a m) {q : κ} (hq : ¬ p0.Writes q) : d' q = d q := by
  cases h with
  | create =>
    cases hi with
    | at_ v h1 => exact put_other _ _ (fun e => hq (h1.writes _ (Or.inl e)))
  | write =>
    cases hi with
    | writing v c h1 => exact put_other _ _ (fun e => hq (h1.writes _ (Or.inl e)))
  | _ => rfl

theorem Prog.Part.next_read {κ : Type} [DecidableEq κ] {p0 : Prog κ} {d0 v : κ → Option Bytes} {p : κ} {off : Nat} {len : Option Nat}
    {next : Option Bytes → Prog κ} (h : (Prog.read p off len next).Part p0 v d0) : (next ((v p).map (portion off len))).Part p0 v d0 :=
  ⟨fun q hq => h.reads q (Or.inr ⟨_, hq⟩), fun q hq => h.writes q ⟨_, hq⟩, fun q b hq => h.stores q b hq, h.same, h.old⟩

theorem Prog.Part.next_write {κ : Type} [DecidableEq κ] {p0 : Prog κ} {d0 v : κ → Option Bytes} {p : κ} {c : Bytes}
    {next : Prog κ} (h : (Prog.write p c next).Part p0 v d0) : next.Part p0 (put v p c) d0 :=
  ⟨fun q hq => h.reads q hq, fun q hq => h.writes q (Or.inr hq), fun q b hq => h.stores q b (Or.inr hq), h.same, fun q => by
    by_cases hq : q = p
    · subst hq; exact Or.inr ⟨c, h.stores q c (Or.inl ⟨rfl, rfl⟩), put_same _ _ _⟩
    · rw [put_other _ _ hq]; exact h.old q⟩

theorem Doing.Step.inv {κ : Type} [DecidableEq κ] {p0 : Prog κ} {d0 d d' : κ → Option Bytes} {a a' : Doing κ} {m : Nat} (h : a.Step d a' d')
    (hi : Doing.Inv p0 d0 d a m) : ∃ m', Doing.Inv p0 d0 d' a' m' ∧ m' < m := by
  cases h with
  | @missing _ p off len next hp =>
    cases hi with
    | at_ v h1 h2 =>
      have hv : v p = none := (h2 p (Or.inl (h1.reads p (Or.inl rfl)))).symm.trans hp
      have h1' := h1.next_read
      rw [hv] at h1'
      refine ⟨_, .at_ v h1' h2, ?_⟩
      rw [Prog.cost, hv]
      dsimp only [Option.map_none]
      omega
  | @opened _ p off len next c hp =>
    cases hi with
    | at_ v h1 h2 =>
      have hv : v p = some c := (h2 p (Or.inl (h1.reads p (Or.inl rfl)))).symm.trans hp
      refine ⟨_, .reading v c h1 h2 hv (Nat.zero_le _) rfl, ?_⟩
      rw [Prog.cost, hv]
      simp only [Option.map_some, Option.elim_some, List.length_nil]
      omega
  | @more _ p off len got next c n hp hl hn =>
    cases hi with
    | reading v c' h1 h2 h3 h4 h5 =>
      have hv : v p = some c := (h2 p (Or.inl (h1.reads p (Or.inl rfl)))).symm.trans hp
      rw [h3] at hv
      cases hv
      have hlen : (((portion off len c).drop got.length).take n).length = min n ((portion off len c).length - got.length) := by
        rw [List.length_take, List.length_drop]
      refine ⟨_, .reading v c h1 h2 h3 ?_ ?_, ?_⟩
      · rw [List.length_append, hlen]; omega
      · conv_lhs => rw [h5]
        rw [List.length_take, Nat.min_eq_left h4, take_more h4, List.length_append]
      · rw [List.length_append, hlen]; omega
  | @readAll _ p off len got next c hp hl =>
    cases hi with
    | reading v c' h1 h2 h3 h4 h5 =>
      have hv : v p = some c := (h2 p (Or.inl (h1.reads p (Or.inl rfl)))).symm.trans hp
      rw [h3] at hv
      cases hv
      have hg : got = portion off len c := by rw [h5, List.take_of_length_le hl]
      subst hg
      have h1' := h1.next_read
      rw [h3] at h1'
      exact ⟨_, .at_ v h1' h2, by omega⟩
  | @create _ p c next =>
    cases hi with
    | at_ v h1 h2 =>
      refine ⟨_, .writing v c h1 (fun q hq hne => (put_other _ _ hne).trans (h2 q hq)) (Nat.zero_le _) (put_same _ _ _) rfl, ?_⟩
      rw [Prog.cost]; omega
  | @write _ p pos n c rest next hp hne hn =>
    cases hi with
    | writing v c' h1 h2 h3 h4 h5 =>
      rw [hp] at h4
      cases h4
      subst h5
      have hl : (c'.drop pos).length = c'.length - pos := List.length_drop
      have hpos : 0 < (c'.drop pos).length := List.length_pos_iff.2 hne
      refine ⟨_, .writing v c' h1 (fun q hq hne => (put_other _ _ hne).trans (h2 q hq hne)) ?_ ?_ ?_, ?_⟩
      · rw [List.length_take]; omega
      · rw [put_same, patch_next h3]
      · rw [List.drop_drop, List.length_take]
        rcases Nat.le_total n (c'.drop pos).length with hk | hk
        · rw [Nat.min_eq_left hk]
        · rw [Nat.min_eq_right hk, List.drop_eq_nil_of_le (by omega), List.drop_eq_nil_of_le (by omega)]
      · rw [List.length_drop]; omega
  | @close _ p pos next =>
    cases hi with
    | writing v c h1 h2 h3 h4 h5 =>
      refine ⟨_, .at_ (put v p c) h1.next_write (fun q hq => ?_), by rw [List.length_nil]; omega⟩
      by_cases hq' : q = p
      · subst hq'
        have hlen : c.length ≤ pos := List.drop_eq_nil_iff.mp h5.symm
        rw [put_same, h4, List.take_of_length_le hlen]
      · rw [put_other _ _ hq']; exact h2 q hq hq'

theorem trace_inv {ι κ : Type} [DecidableEq ι] [DecidableEq κ] {progs : ι → Prog κ} (ha : ProgsApart progs) {d0 : κ → Option Bytes} {sched : List ι}
    {t : Machine ι κ} (h : Machine.Trace sched (.begin progs d0) t) :
    (∀ i, ∃ m, Doing.Inv (progs i) d0 t.files (t.doing i) m ∧ sched.count i + m ≤ (progs i).cost d0) ∧ ∀ q, (∀ i, ¬ (progs i).Writes q) → t.files q = d0 q := by
  generalize hs : Machine.begin progs d0 = s at h
  induction h with
  | nil s => subst hs; exact ⟨fun i => ⟨_, .first _ _, by simp⟩, fun _ _ => rfl⟩
  | @step sched s t i a d he hst ih =>
    obtain ⟨h1, h2⟩ := ih hs
    obtain ⟨m, g1, g2⟩ := h1 i
    refine ⟨fun k => ?_, fun q hq => (hst.other g1 (hq i)).trans (h2 q hq)⟩
    rw [List.count_append]
    by_cases hk : k = i
    · subst hk
      obtain ⟨m', f1, f2⟩ := hst.inv g1
      refine ⟨m', by simpa using f1, ?_⟩
      simp only [List.count_singleton_self]
      omega
    · obtain ⟨m', f1, f2⟩ := h1 k
      refine ⟨m', ?_, ?_⟩
      · dsimp only
        rw [if_neg hk]
        refine f1.congr (fun q hq => hst.other g1 (fun ho => ?_))
        obtain ⟨a1, a2⟩ := ha i k (Ne.symm hk) q ho
        exact hq.elim a1 a2
      · rw [List.count_singleton, if_neg (by simpa using Ne.symm hk)]
        omega

theorem Doing.Inv.progress {κ : Type} [DecidableEq κ] {p0 : Prog κ} {d0 d : κ → Option Bytes} {a : Doing κ} {m : Nat} (h : Doing.Inv p0 d0 d a m)
    (hn : ∀ s, a ≠ .at_ (.done s)) : ∃ a' d', a.Step d a' d' := by
  cases h with
  | @at_ p v h1 h2 =>
    cases p with
    | done s => exact absurd rfl (hn s)
    | read p off len next =>
      cases hp : d p with
      | none => exact ⟨_, _, .missing hp⟩
      | some c => exact ⟨_, _, .opened hp⟩
    | write p c next => exact ⟨_, _, .create⟩
  | @reading p off len got next v c h1 h2 h3 h4 h5 =>
    have hd : d p = some c := (h2 p (Or.inl (h1.reads p (Or.inl rfl)))).trans h3
    rcases Nat.lt_or_ge got.length (portion off len c).length with hl | hl
    · exact ⟨_, _, .more hd hl (Nat.one_pos)⟩
    · exact ⟨_, _, .readAll hd hl⟩
  | @writing p pos rest next v c h1 h2 h3 h4 h5 =>
    cases rest with
    | nil => exact ⟨_, _, .close⟩
    | cons b bs => exact ⟨_, _, .write h4 (by simp) Nat.one_pos⟩
/-! ### The theorems -/

/-- **C118, the end of a program.** Any number of programs at the same time, none writing a file another reads or writes: one that is at its end has the exit status
it would have had alone, and the files it reads and the files it writes are as they would be after it alone. -/
theorem C118_alone {ι κ : Type} [DecidableEq ι] [DecidableEq κ] (progs : ι → Prog κ) (ha : ProgsApart progs) (d : κ → Option Bytes) (sched : List ι)
    (t : Machine ι κ) (h : Machine.Trace sched (.begin progs d) t) (i : ι) (s : Nat) (he : t.doing i = .at_ (.done s)) :
    s = ((progs i).alone d).2 ∧ ∀ q, (progs i).Reads q ∨ (progs i).Writes q → t.files q = ((progs i).alone d).1 q := by
  obtain ⟨m, hi, -⟩ := (trace_inv ha h).1 i
  rw [he] at hi
  cases hi with
  | at_ v h1 h2 =>
    have := h1.same
    rw [Prog.alone] at this
    exact ⟨by rw [← this], fun q hq => by rw [← this]; exact h2 q hq⟩

/-- **C118, at every moment** (so also if all of them are killed).  A file that no program writes is as it was.  A file that a program writes is as it was, or holds
a beginning of something the program would have stored in it if it had been alone. -/
theorem C118_always {ι κ : Type} [DecidableEq ι] [DecidableEq κ] (progs : ι → Prog κ) (ha : ProgsApart progs) (d : κ → Option Bytes) (sched : List ι)
    (t : Machine ι κ) (h : Machine.Trace sched (.begin progs d) t) (q : κ) :
    ((∀ i, ¬ (progs i).Writes q) → t.files q = d q) ∧
    ∀ i, (progs i).Writes q → t.files q = d q ∨ ∃ b n, (progs i).Stores d q b ∧ t.files q = some (b.take n) := by
  obtain ⟨h1, h2⟩ := trace_inv ha h
  refine ⟨h2 q, fun i hw => ?_⟩
  obtain ⟨m, hi, -⟩ := h1 i
  have whole : ∀ v : κ → Option Bytes, (v q = d q ∨ ∃ b, (progs i).Stores d q b ∧ v q = some b) → t.files q = v q →
      t.files q = d q ∨ ∃ b n, (progs i).Stores d q b ∧ t.files q = some (b.take n) := by
    rintro v (hv | ⟨b, hb, hv⟩) ht
    · exact Or.inl (ht.trans hv)
    · exact Or.inr ⟨b, b.length, hb, by rw [ht, hv, List.take_length]⟩
  generalize t.doing i = a at hi
  cases hi with
  | at_ v g1 g2 => exact whole v (g1.old q) (g2 q (Or.inr hw))
  | reading v c g1 g2 => exact whole v (g1.old q) (g2 q (Or.inr hw))
  | @writing p pos rest next v c g1 g2 g3 g4 g5 =>
    by_cases hq : q = p
    · subst hq
      exact Or.inr ⟨c, pos, g1.stores q c (Or.inl ⟨rfl, rfl⟩), g4⟩
    · exact whole v (g1.old q) (g2 q (Or.inr hw) hq)

/-- **C118, no waiting.** Whatever the others have done, a program that is not at its end can go on. -/
theorem C118_progress {ι κ : Type} [DecidableEq ι] [DecidableEq κ] (progs : ι → Prog κ) (ha : ProgsApart progs) (d : κ → Option Bytes) (sched : List ι)
    (t : Machine ι κ) (h : Machine.Trace sched (.begin progs d) t) (i : ι) (hn : ∀ s, t.doing i ≠ .at_ (.done s)) :
    ∃ t', Machine.Trace (sched ++ [i]) (.begin progs d) t' := by
  obtain ⟨m, hi, -⟩ := (trace_inv ha h).1 i
  obtain ⟨a, d', hs⟩ := hi.progress hn
  exact ⟨_, .step h hs⟩

/-- **C118, termination.** There is a number of steps that a program makes at most, whatever the schedule. -/
theorem C118_bounded {ι κ : Type} [DecidableEq ι] [DecidableEq κ] (progs : ι → Prog κ) (ha : ProgsApart progs) (d : κ → Option Bytes) :
    ∃ n : ι → Nat, ∀ sched t, Machine.Trace sched (.begin progs d) t → ∀ i, sched.count i ≤ n i := by
  refine ⟨fun i => (progs i).cost d, fun sched t h i => ?_⟩
  obtain ⟨m, -, hm⟩ := (trace_inv ha h).1 i
  dsimp only
  omega

/-- **C118, to the end.** However far finitely many programs have got, they can all be brought to their ends. -/
theorem C118_completes {ι κ : Type} [DecidableEq ι] [DecidableEq κ] [Fintype ι] (progs : ι → Prog κ) (ha : ProgsApart progs) (d : κ → Option Bytes)
    (sched : List ι) (t : Machine ι κ) (h : Machine.Trace sched (.begin progs d) t) :
    ∃ more t', Machine.Trace (sched ++ more) (.begin progs d) t' ∧ ∀ i, ∃ s, t'.doing i = .at_ (.done s) := by
  obtain ⟨n, hn⟩ := C118_bounded progs ha d
  have hlen : ∀ sched t, Machine.Trace sched (.begin progs d) t → sched.length ≤ ∑ i, n i := by
    intro sched t h
    have : sched.length = ∑ i, sched.count i := by
      clear h
      induction sched with
      | nil => simp
      | cons a l ih =>
        simp only [List.length_cons, List.count_cons, Finset.sum_add_distrib, ih]
        have : (∑ x, if (a == x) = true then 1 else 0) = 1 := by
          rw [Finset.sum_eq_single_of_mem a (Finset.mem_univ a) (fun b _ hb => if_neg (by simpa using Ne.symm hb))]
          exact if_pos (by simp)
        rw [this]
    rw [this]
    exact Finset.sum_le_sum (fun i _ => hn sched t h i)
  generalize hm : (∑ i, n i) - sched.length = m
  induction m using Nat.strong_induction_on generalizing sched t with
  | _ m ih =>
    by_cases hall : ∀ i, ∃ s, t.doing i = .at_ (.done s)
    · exact ⟨[], t, by rw [List.append_nil]; exact h, hall⟩
    · rw [not_forall] at hall
      obtain ⟨i, hi⟩ := hall
      obtain ⟨t1, h1⟩ := C118_progress progs ha d sched t h i (fun e he => hi ⟨e, he⟩)
      have l1 := hlen _ _ h1
      rw [List.length_append, List.length_singleton] at l1
      obtain ⟨more, t', g1, g2⟩ := ih ((∑ k, n k) - (sched ++ [i]).length) (by rw [List.length_append, List.length_singleton]; omega) _ _ h1 rfl
      exact ⟨i :: more, t', by rw [List.append_assoc] at g1; exact g1, g2⟩

theorem progsInTurn_spec {ι κ : Type} [DecidableEq κ] {progs : ι → Prog κ} (ha : ProgsApart progs) {d0 : κ → Option Bytes} : ∀ {l : List ι} {d : κ → Option Bytes},
    l.Nodup → (∀ i ∈ l, ∀ q, (progs i).Mine q → d q = d0 q) →
    (∀ i ∈ l, ∀ q, (progs i).Mine q → (∀ k ∈ l, k ≠ i → ¬ (progs k).Writes q) → progsInTurn progs d l q = ((progs i).alone d0).1 q) ∧
    ∀ q, (∀ i ∈ l, ¬ (progs i).Writes q) → progsInTurn progs d l q = d q
  | [], d, _, _ => ⟨fun i hi => (by cases hi), fun _ _ => rfl⟩
  | i :: l, d, hn, hd => by
    obtain ⟨hi, hn'⟩ := List.nodup_cons.mp hn
    have e1 := hd i List.mem_cons_self
    have hoth : ∀ q, ¬ (progs i).Writes q → ((progs i).alone d).1 q = d q := fun q hq => Prog.alone_other _ hq
    have hmine : ∀ q, (progs i).Mine q → ((progs i).alone d).1 q = ((progs i).alone d0).1 q := fun q hq =>
      ((progs i).alone_local e1).2 q (e1 q hq)
    obtain ⟨g1, g2⟩ := progsInTurn_spec ha (d0 := d0) (l := l) (d := ((progs i).alone d).1) hn' (fun k hk q hq => by
      have hki : i ≠ k := fun h => hi (h ▸ hk)
      rw [hoth q (fun ho => by
        obtain ⟨a1, a2⟩ := ha i k hki q ho
        exact hq.elim a1 a2)]
      exact hd k (List.mem_cons_of_mem _ hk) q hq)
    have step : progsInTurn progs d (i :: l) = progsInTurn progs ((progs i).alone d).1 l := rfl
    rw [step]
    refine ⟨fun k hk q hq hx => ?_, fun q hq => ?_⟩
    · rcases List.mem_cons.mp hk with rfl | hk'
      · rw [g2 q (fun m hm => hx m (List.mem_cons_of_mem _ hm) (fun h => hi (h ▸ hm)))]
        exact hmine q hq
      · exact g1 k hk' q hq (fun m hm hmk => hx m (List.mem_cons_of_mem _ hm) hmk)
    · rw [g2 q (fun m hm => hq m (List.mem_cons_of_mem _ hm))]
      exact hoth q (hq i List.mem_cons_self)

/-- **C118, as if in turn.** When all the programs are at their ends the files are as after the same programs one after the other, in whatever order. -/
theorem C118_in_turn {ι κ : Type} [DecidableEq ι] [DecidableEq κ] (progs : ι → Prog κ) (ha : ProgsApart progs) (d : κ → Option Bytes) (sched : List ι)
    (t : Machine ι κ) (h : Machine.Trace sched (.begin progs d) t) (hend : ∀ i, ∃ s, t.doing i = .at_ (.done s)) (order : List ι) (ho : order.Nodup)
    (hall : ∀ i, i ∈ order) : t.files = progsInTurn progs d order := by
  obtain ⟨g1, g2⟩ := progsInTurn_spec ha (d0 := d) (l := order) (d := d) ho (fun _ _ _ _ => rfl)
  funext q
  by_cases hq : ∃ i, (progs i).Writes q
  · obtain ⟨i, hi⟩ := hq
    obtain ⟨s, he⟩ := hend i
    rw [g1 i (hall i) q (Or.inr hi) (fun k _ hk hqk => (ha k i hk q hqk).2 hi)]
    exact (C118_alone progs ha d sched t h i s he).2 q (Or.inr hi)
  · have hq' : ∀ i, ¬ (progs i).Writes q := fun i hi => hq ⟨i, hi⟩
    rw [g2 q (fun i _ => hq' i)]
    exact (trace_inv ha h).2 q hq'

/-! ### The three programs -/

theorem portion_head (c : Bytes) : portion 0 (some 12) c = c.take 12 := rfl
theorem portion_all (c : Bytes) : portion 0 none c = c := rfl
theorem portion_from (n : Nat) (c : Bytes) : portion n none c = c.drop n := rfl

theorem compressProg_alone (env : Env) (a : RunArgs) (s : List Char) (hu : a.uncompress = false) (disk : Disk) (d : List F64) (next : Ended → Prog (List Char)) :
    (compressProg env a (setExtension s a.outExt) d next).alone disk = (next (pathCompress env a disk s d).2).alone (pathCompress env a disk s d).1 := by
  unfold compressProg pathCompress RunArgs.outExt
  rw [if_neg (by rw [hu]; decide)]
  cases compressData env.E env.p d a.comp <;> rfl

theorem fileProg_alone (env : Env) (a : RunArgs) (s : List Char) (disk : Disk) (next : Ended → Prog (List Char)) :
    (fileProg env a s (setExtension s a.outExt) next).alone disk = (next (pathSingle env a disk s).2).alone (pathSingle env a disk s).1 := by
  unfold fileProg pathSingle
  split_ifs with hu hc
  · rw [Prog.alone]
    cases hd : disk s with
    | none => rfl
    | some c =>
      dsimp only [Option.map_some, portion_head]
      unfold broRead
      have hl : (c.take 12).length < 12 ↔ c.length < 12 := by rw [List.length_take]; omega
      by_cases h12 : c.length < 12
      · rw [if_pos (hl.2 h12), if_pos h12]
      · rw [if_neg (fun h => h12 (hl.1 h)), if_neg h12]
        have ht : (c.take 12).take 4 = c.take 4 := by rw [List.take_take]; rfl
        rw [ht]
        by_cases hb : c.take 4 = brro
        · rw [if_pos hb, if_pos hb, Prog.alone, hd]
          dsimp only [Option.map_some, portion_all]
          cases decompressData env.E c with
          | error e => rfl
          | ok d =>
            dsimp only
            cases WavBrro.toFileWithData d with
            | error e => rfl
            | ok f =>
              dsimp only
              rw [Prog.alone]
              unfold RunArgs.outExt
              rw [if_pos hu]
              rfl
        · rw [if_neg hb, if_neg hb]
  · rw [Prog.alone]
    cases hd : disk s with
    | none => rfl
    | some c =>
      dsimp only [Option.map_some, portion_all]
      cases readCsv env a c with
      | error e => rfl
      | ok r =>
        cases r with
        | error e => rfl
        | ok d => exact compressProg_alone env a s (by simpa using hu) disk d next
  · rw [Prog.alone]
    cases hd : disk s with
    | none => rfl
    | some c =>
      dsimp only [Option.map_some, portion_head]
      unfold WavBrro.fromFile
      have hl : (c.take 12).length < 12 ↔ c.length < 12 := by rw [List.length_take]; omega
      by_cases h12 : c.length < 12
      · rw [if_pos (hl.2 h12), if_pos h12]
      · rw [if_neg (fun h => h12 (hl.1 h)), if_neg h12]
        have h0 : WavBrro.sliceAt (c.take 12) 0 4 = WavBrro.sliceAt c 0 4 := by
          unfold WavBrro.sliceAt; rw [List.drop_take, List.take_take]; rfl
        have h8 : WavBrro.sliceAt (c.take 12) 8 4 = WavBrro.sliceAt c 8 4 := by
          unfold WavBrro.sliceAt; rw [List.drop_take, List.take_take]; rfl
        rw [h0, h8]
        by_cases hb : WavBrro.sliceAt c 0 4 = WavBrro.wbro ∧ WavBrro.sliceAt c 8 4 = WavBrro.wbro
        · rw [if_pos hb, if_neg (fun h => h hb), Prog.alone, hd]
          dsimp only [Option.map_some, portion_from]
          cases WavBrro.fromBytes env.addr (c.drop 12) with
          | error e => rfl
          | ok w => exact compressProg_alone env a s (by simpa using hu) disk w.getSamples next
        · rw [if_neg hb, if_pos hb]

theorem dirProg_alone (env : Env) (a : RunArgs) (s : List Char) : ∀ (names : List (List Char × Bool)) (disk : Disk),
    (dirProg env a (fun p => setExtension p a.outExt) (names.map fun n => (joinPath s n.1, n.2))).alone disk =
      ((pathDir env a s disk names).1, (pathDir env a s disk names).2.status)
  | [], disk => rfl
  | (name, false) :: rest, disk => by
    rw [List.map_cons, dirProg, pathDir, if_neg (by simp), if_neg (by simp)]
    exact dirProg_alone env a s rest disk
  | (name, true) :: rest, disk => by
    rw [List.map_cons, dirProg, pathDir, if_pos rfl, if_pos rfl, fileProg_alone]
    cases pathSingle env a disk (joinPath s name) with
    | mk d1 e1 =>
      cases e1 with
      | ok => exact dirProg_alone env a s rest d1
      | panicked => rfl
      | err =>
        dsimp only
        rw [fileProg_alone]
        cases pathSingle env a d1 (joinPath s name) with
        | mk d2 e2 =>
          cases e2 with
          | ok => exact dirProg_alone env a s rest d2
          | panicked => rfl
          | err => rfl

theorem atscProg_alone (env : Env) (a : RunArgs) (s : List Char) (node : Node) (disk : Disk) : (atscProg env a s node).alone disk = pathMain env a disk s node := by
  cases node with
  | missing => rfl
  | other => rfl
  | file =>
    have := fileProg_alone env a s disk (fun e => .done e.status)
    exact this
  | dir names => exact dirProg_alone env a s names disk

/-- **C118, atsc.** Alone, the command atsc is the one of the rest of the model. -/
theorem C118_atsc (env : Env) (node : List Char → Node) (ts : List Tok) (disk : Disk) :
    (Command.atsc env node ts).prog.alone disk = pathAtsc env node disk ts := by
  unfold Command.prog pathAtsc
  dsimp only
  cases atscParse ts with
  | error s => rfl
  | ok a => exact atscProg_alone env a.run a.input (node a.input) disk

theorem isWav_head (c : Bytes) : Wav.isWav (c.take 12) = Wav.isWav c := by
  unfold Wav.isWav
  have hl : (c.take 12).length < 12 ↔ c.length < 12 := by rw [List.length_take]; omega
  by_cases h12 : c.length < 12
  · rw [if_pos (hl.2 h12), if_pos h12]
  · rw [if_neg (fun h => h12 (hl.1 h)), if_neg h12, List.take_take, List.drop_take, List.take_take]
    rfl

theorem wavProg_alone (hound : Bytes → Option (Nat × List (Option Int))) (p : Profile) (name : List Char) (v : Bool) (fs : Wav.Files) :
    (wavProg hound p name v).alone fs = match Wav.wavMain hound p fs name v with
      | (fs', .ok ()) => (fs', 0)
      | (fs', .error _) => (fs', 101) := by
  unfold wavProg Wav.wavMain
  rw [Prog.alone]
  cases hd : fs name with
  | none => rfl
  | some c =>
    dsimp only [Option.map_some, portion_head]
    rw [isWav_head]
    cases Wav.isWav c with
    | error e => rfl
    | ok b =>
      cases b with
      | false => rfl
      | true =>
        dsimp only
        rw [Prog.alone, hd]
        dsimp only [Option.map_some, portion_all]
        cases Wav.readWav hound c with
        | error e => rfl
        | ok data =>
          dsimp only
          cases WavBrro.addAll p .new (data.filter fun x => !x.isNaN) with
          | error e => rfl
          | ok w =>
            dsimp only
            cases Wav.stripWav name with
            | none => rfl
            | some stem =>
              dsimp only
              cases w.toFile with
              | error e => rfl
              | ok out =>
                dsimp only
                rw [Prog.alone]
                cases v with
                | false => rfl
                | true =>
                  rw [if_pos rfl, if_pos rfl]
                  cases Wav.validate data w.getSamples <;> rfl

/-- **C118, wav2wbro.** Alone, the command wav2wbro is the one of the rest of the model. -/
theorem C118_wav (hound : Bytes → Option (Nat × List (Option Int))) (p : Profile) (ts : List Tok) (disk : Disk) :
    (Command.wav hound p ts).prog.alone disk = wav2wbro hound p disk ts := by
  unfold Command.prog wav2wbro
  dsimp only
  cases wavCmd.run none false [] ts with
  | error s => rfl
  | ok seen =>
    dsimp only
    cases seen.value .input with
    | none => rfl
    | some name => exact wavProg_alone hound p name _ disk

theorem csvProg_alone (env : CsvEnv) (a : CsvArgs) (fs : Fs) (input : FPath) :
    (csvProg env a FPath.withExt input (a.base input)).alone fs = match csvRun env a fs input with
      | (fs', .ok ()) => (fs', 0)
      | (fs', .error _) => (fs', 101) := by
  unfold csvProg csvRun
  by_cases hu : a.uncompress = true
  · rw [if_pos hu, if_pos hu]
    unfold csvProgUncompress csvRunUncompress
    rw [Prog.alone]
    cases hd : fs input with
    | none => rfl
    | some c =>
      dsimp only [Option.map_some, portion_head]
      unfold broRead
      have hl : (c.take 12).length < 12 ↔ c.length < 12 := by rw [List.length_take]; omega
      by_cases h12 : c.length < 12
      · rw [if_pos (hl.2 h12), if_pos h12]; rfl
      · rw [if_neg (fun h => h12 (hl.1 h)), if_neg h12]
        have ht : (c.take 12).take 4 = c.take 4 := by rw [List.take_take]; rfl
        rw [ht]
        by_cases hb : c.take 4 = brro
        · rw [if_pos hb, if_pos hb, Prog.alone, hd]
          dsimp only [Option.map_some, portion_all]
          cases decompressData env.E c with
          | error e => rfl
          | ok d =>
            dsimp only
            cases WavBrro.addAll env.p .new d with
            | error e => rfl
            | ok w =>
              dsimp only
              rw [Prog.alone]
              cases fs (input.withExt "vsri") with
              | none => rfl
              | some i =>
                dsimp only [Option.map_some, portion_all]
                cases Vsri.loadOrPanic i with
                | error e => rfl
                | ok v =>
                  dsimp only
                  cases WavBrro.toFileWithData d with
                  | error e => rfl
                  | ok f =>
                    dsimp only
                    rw [Prog.alone]
                    cases Metric.getSamples env.p ⟨w, v⟩ with
                    | error e => rfl
                    | ok ss => rfl
        · rw [if_neg hb, if_neg hb]; rfl
  · rw [if_neg hu, if_neg hu]
    unfold csvProgCompress csvRunCompress
    rw [Prog.alone]
    cases fs input with
    | none => rfl
    | some c =>
      dsimp only [Option.map_some, portion_all]
      cases env.readCsv c with
      | none => rfl
      | some ss =>
        dsimp only
        cases Metric.fromSamples env.p env.valid ss with
        | error e => rfl
        | ok r =>
          cases r with
          | error e => rfl
          | ok m =>
            dsimp only
            have bro : ∀ fs' : Fs, (csvProgBro env a FPath.withExt (a.base input) m).alone fs' = match csvFlushBro env a (a.base input) m fs' with
                | (fs', .ok ()) => (fs', 0)
                | (fs', .error _) => (fs', 101) := by
              intro fs'
              unfold csvProgBro csvFlushBro
              by_cases hn : a.noCompression = true
              · rw [if_pos hn, if_pos hn]; rfl
              · rw [if_neg hn, if_neg hn]
                cases compressData env.E env.p m.wbro.getSamples a.comp <;> rfl
            have vsri : ∀ fs' : Fs, (csvProgVsri env a FPath.withExt (a.base input) m).alone fs' =
                match csvFlushBro env a (a.base input) m (csvFlushVsri a (a.base input) m fs') with
                | (fs', .ok ()) => (fs', 0)
                | (fs', .error _) => (fs', 101) := by
              intro fs'
              unfold csvProgVsri csvFlushVsri
              by_cases hn : a.outputVsri = true
              · rw [if_pos hn, if_pos hn, Prog.alone, bro]; rfl
              · rw [if_neg hn, if_neg hn, bro]
            unfold csvFlushWavbrro
            by_cases hw : a.outputWavbrro = true
            · rw [if_pos hw, if_pos hw]
              cases m.wbro.toFile with
              | error e => rfl
              | ok f =>
                dsimp only
                rw [Prog.alone, vsri]
                rfl
            · rw [if_neg hw, if_neg hw]
              exact vsri fs

/-- Two programs that do the same, one on path texts and one on stems and extensions. -/
inductive SameProg : Prog (List Char) → Prog FPath → Prop
  | done (s : Nat) : SameProg (.done s) (.done s)
  | read {s dir name : List Char} {off : Nat} {len : Option Nat} {f : Option Bytes → Prog (List Char)} {g : Option Bytes → Prog FPath} : Names s dir name →
      (∀ o, SameProg (f o) (g o)) → SameProg (.read s off len f) (.read (FPath.ofPath s) off len g)
  | write {s dir name : List Char} {c : Bytes} {f : Prog (List Char)} {g : Prog FPath} : Names s dir name → SameProg f g →
      SameProg (.write s c f) (.write (FPath.ofPath s) c g)

theorem SameProg.alone {p : Prog (List Char)} {q : Prog FPath} (h : SameProg p q) : ∀ {disk : Disk} {fs : Fs}, Agrees disk fs →
    (q.alone fs).2 = (p.alone disk).2 ∧ Agrees (p.alone disk).1 (q.alone fs).1 := by
  induction h with
  | done s => exact fun hag => ⟨rfl, hag⟩
  | @read s dir name off len f g hn _ ih =>
    intro disk fs hag
    rw [Prog.alone, Prog.alone, hag s dir name hn]
    exact ih _ hag
  | @write s dir name c f g hn _ ih =>
    intro disk fs hag
    rw [Prog.alone, Prog.alone]
    refine ih (fun q dq nq hq => ?_)
    unfold put
    by_cases hc : q = s
    · rw [if_pos hc, if_pos (by rw [hc])]
    · rw [if_neg hc, if_neg (fun h => hc ((C110_distinct _ _ _ _ _ _ hq hn).mp h))]
      exact hag q dq nq hq

/-- An extension as csv-compressor sets them. -/
def PlainExt (e : String) : Prop := '/' ∉ e.toList ∧ '.' ∉ e.toList ∧ e ≠ ""

theorem names_setExtension {s dir name t : List Char} {e : String} (h : Names s dir name) (ht : Trail t) (he : PlainExt e) :
    (∃ d n, Names (setExtension (s ++ t) e.toList) d n) ∧ FPath.ofPath (setExtension (s ++ t) e.toList) = (FPath.ofPath (s ++ t)).withExt e := by
  have hp := parts_splitDot name
  have hne' : e.toList ≠ [] := fun h => he.2.2 (by rw [← String.ofList_toList (s := e), h])
  obtain ⟨a1, -⟩ := names_output h hp he.1 he.2.1 hne'
  refine ⟨⟨dir, (splitDot name).1 ++ '.' :: e.toList, ?_⟩, ofPath_setExtension h ht he.1 he.2.1 he.2.2⟩
  rw [setExtension_names h hp ht]
  exact a1

theorem sameProg_csv (env : CsvEnv) (a : CsvArgs) {i di ni s dir name t : List Char} (hi : Names i di ni) (h : Names s dir name) (ht : Trail t) :
    SameProg (csvProg env a (fun p e => setExtension p e.toList) i (s ++ t)) (csvProg env a FPath.withExt (FPath.ofPath i) (FPath.ofPath (s ++ t))) := by
  have out : ∀ {e : String} {c : Bytes} {f : Prog (List Char)} {g : Prog FPath}, PlainExt e → SameProg f g →
      SameProg (.write (setExtension (s ++ t) e.toList) c f) (.write ((FPath.ofPath (s ++ t)).withExt e) c g) := by
    intro e c f g he hs
    obtain ⟨⟨d, n, h1⟩, h2⟩ := names_setExtension h ht he
    rw [← h2]
    exact .write h1 hs
  unfold csvProg
  by_cases hu : a.uncompress = true
  · rw [if_pos hu, if_pos hu]
    unfold csvProgUncompress
    refine .read hi (fun o => ?_)
    cases o with
    | none => exact .done _
    | some c =>
      dsimp only
      split_ifs
      · exact .done _
      · refine .read hi (fun o => ?_)
        cases o with
        | none => exact .done _
        | some c =>
          dsimp only
          cases decompressData env.E c with
          | error e => exact .done _
          | ok d =>
            dsimp only
            cases WavBrro.addAll env.p .new d with
            | error e => exact .done _
            | ok w =>
              dsimp only
              obtain ⟨⟨d1, n1, h1⟩, h2⟩ := names_setExtension (e := "vsri") hi .nil ⟨by decide, by decide, by decide⟩
              rw [List.append_nil] at h1 h2
              rw [← h2]
              refine .read h1 (fun o => ?_)
              cases o with
              | none => exact .done _
              | some c =>
                dsimp only
                cases Vsri.loadOrPanic c with
                | error e => exact .done _
                | ok v =>
                  dsimp only
                  cases WavBrro.toFileWithData d with
                  | error e => exact .done _
                  | ok f =>
                    dsimp only
                    refine out ⟨by decide, by decide, by decide⟩ ?_
                    cases Metric.getSamples env.p ⟨w, v⟩ with
                    | error e => exact .done _
                    | ok ss =>
                      dsimp only
                      obtain ⟨⟨d1, n1, h1⟩, h2⟩ := names_setExtension (e := "wbro") h ht ⟨by decide, by decide, by decide⟩
                      obtain ⟨⟨d3, n3, h3⟩, h4⟩ := names_setExtension (e := "csv") h1 .nil ⟨by decide, by decide, by decide⟩
                      rw [List.append_nil] at h3 h4
                      rw [← h2, ← h4]
                      exact .write h3 (.done _)
      · exact .done _
  · rw [if_neg hu, if_neg hu]
    unfold csvProgCompress
    refine .read hi (fun o => ?_)
    cases o with
    | none => exact .done _
    | some c =>
      dsimp only
      cases env.readCsv c with
      | none => exact .done _
      | some ss =>
        dsimp only
        cases Metric.fromSamples env.p env.valid ss with
        | error e => exact .done _
        | ok r =>
          cases r with
          | error e => exact .done _
          | ok m =>
            dsimp only
            have bro : SameProg (csvProgBro env a (fun p e => setExtension p e.toList) (s ++ t) m) (csvProgBro env a FPath.withExt (FPath.ofPath (s ++ t)) m) := by
              unfold csvProgBro
              split_ifs
              · exact .done _
              · cases compressData env.E env.p m.wbro.getSamples a.comp with
                | error e => exact .done _
                | ok bs => exact out ⟨by decide, by decide, by decide⟩ (.done _)
            have vsri : SameProg (csvProgVsri env a (fun p e => setExtension p e.toList) (s ++ t) m) (csvProgVsri env a FPath.withExt (FPath.ofPath (s ++ t)) m) := by
              unfold csvProgVsri
              split_ifs
              · exact out ⟨by decide, by decide, by decide⟩ bro
              · exact bro
            split_ifs
            · cases m.wbro.toFile with
              | error e => exact .done _
              | ok f => exact out ⟨by decide, by decide, by decide⟩ vsri
            · exact vsri

/-- **C118, csv-compressor.** Alone, the command csv-compressor is the one of the rest of the model (which works on stems and extensions): the same exit status and
the same files.  The input, if it is a regular file, and the path after `--output` must name a file (a `/` at the end of the latter is ignored). -/
theorem C118_csv (env : CsvEnv) (isFile : List Char → Bool) (ts : List Tok) (disk : Disk) (fs : Fs) (hag : Agrees disk fs)
    (hf : ∀ i, isFile i = true → ∃ dir name, Names i dir name)
    (ho : ∀ seen o, csvCmd.run none false [] ts = .ok seen → seen.value .output = some o → ∃ s t dir name, o = s ++ t ∧ Trail t ∧ Names s dir name) :
    (csvMain env FPath.ofPath isFile fs ts).2 = ((Command.csv env isFile ts).prog.alone disk).2 ∧
    Agrees ((Command.csv env isFile ts).prog.alone disk).1 (csvMain env FPath.ofPath isFile fs ts).1 := by
  unfold Command.prog csvMain csvParse
  dsimp only
  cases hr : csvCmd.run none false [] ts with
  | error s => exact ⟨rfl, hag⟩
  | ok seen =>
    have ho := ho seen
    dsimp only
    cases hb : csvBuild FPath.ofPath seen with
    | error s => exact ⟨rfl, hag⟩
    | ok x =>
      obtain ⟨i, a⟩ := x
      dsimp only
      cases hi : isFile i with
      | false => exact ⟨rfl, hag⟩
      | true =>
        rw [if_pos rfl, if_pos rfl]
        have hout : a.output = (seen.value .output).map FPath.ofPath := by
          unfold csvBuild at hb
          cases hv : seen.value .input with
          | none => rw [hv] at hb; cases hb
          | some j =>
            rw [hv] at hb
            have := Except.ok.inj hb
            rw [← (Prod.mk.inj this).2]
        obtain ⟨di, ni, hn⟩ := hf i hi
        obtain ⟨s, t, dir, name, e1, e2, e3⟩ : ∃ s t dir name, (seen.value .output).getD i = s ++ t ∧ Trail t ∧ Names s dir name := by
          cases hv : seen.value .output with
          | none => exact ⟨i, [], di, ni, by simp, .nil, hn⟩
          | some o =>
            obtain ⟨s, t, dir, name, h1, h2, h3⟩ := ho o hr hv
            exact ⟨s, t, dir, name, h1, h2, h3⟩
        have hbase : a.base (FPath.ofPath i) = FPath.ofPath (s ++ t) := by
          unfold CsvArgs.base
          rw [hout, ← e1]
          cases seen.value .output <;> rfl
        rw [e1]
        have h := (sameProg_csv env a hn e3 e2).alone hag
        rw [← hbase, csvProg_alone] at h
        cases hrun : csvRun env a fs (FPath.ofPath i) with
        | mk fs' r =>
          rw [hrun] at h
          cases r with
          | ok u => exact h
          | error e => exact h

/-! ### The files they touch -/

theorem fileProg_touches {κ : Type} {env : Env} {a : RunArgs} {path out q : κ} {next : Ended → Prog κ} :
    ((fileProg env a path out next).Reads q → q = path ∨ ∃ e, (next e).Reads q) ∧
    ((fileProg env a path out next).Writes q → q = out ∨ ∃ e, (next e).Writes q) := by
  have comp : ∀ d, ((compressProg env a out d next).Reads q → ∃ e, (next e).Reads q) ∧
      ((compressProg env a out d next).Writes q → q = out ∨ ∃ e, (next e).Writes q) := by
    intro d
    unfold compressProg
    cases compressData env.E env.p d a.comp with
    | error e => exact ⟨fun h => ⟨_, h⟩, fun h => Or.inr ⟨_, h⟩⟩
    | ok bs => exact ⟨fun h => ⟨_, h⟩, fun h => h.elim Or.inl (fun h => Or.inr ⟨_, h⟩)⟩
  unfold fileProg
  split_ifs with hu hc
  · refine ⟨fun h => h.elim Or.inl ?_, ?_⟩
    · rintro ⟨o, h⟩
      cases o with
      | none => exact Or.inr ⟨_, h⟩
      | some c =>
        dsimp only at h
        split_ifs at h
        · exact Or.inr ⟨_, h⟩
        · rcases h with h | ⟨o, h⟩
          · exact Or.inl h
          · cases o with
            | none => exact Or.inr ⟨_, h⟩
            | some c =>
              dsimp only at h
              split at h
              · exact Or.inr ⟨_, h⟩
              · split at h
                · exact Or.inr ⟨_, h⟩
                · exact Or.inr ⟨_, h⟩
        · exact Or.inr ⟨_, h⟩
    · rintro ⟨o, h⟩
      cases o with
      | none => exact Or.inr ⟨_, h⟩
      | some c =>
        dsimp only at h
        split_ifs at h
        · exact Or.inr ⟨_, h⟩
        · rcases h with ⟨o, h⟩
          cases o with
          | none => exact Or.inr ⟨_, h⟩
          | some c =>
            dsimp only at h
            split at h
            · exact Or.inr ⟨_, h⟩
            · split at h
              · exact Or.inr ⟨_, h⟩
              · exact h.elim Or.inl (fun h => Or.inr ⟨_, h⟩)
        · exact Or.inr ⟨_, h⟩
  · refine ⟨fun h => h.elim Or.inl ?_, ?_⟩
    · rintro ⟨o, h⟩
      cases o with
      | none => exact Or.inr ⟨_, h⟩
      | some c =>
        dsimp only at h
        split at h
        · exact Or.inr ⟨_, h⟩
        · exact Or.inr ⟨_, h⟩
        · exact Or.inr ((comp _).1 h)
    · rintro ⟨o, h⟩
      cases o with
      | none => exact Or.inr ⟨_, h⟩
      | some c =>
        dsimp only at h
        split at h
        · exact Or.inr ⟨_, h⟩
        · exact Or.inr ⟨_, h⟩
        · exact (comp _).2 h
  · refine ⟨fun h => h.elim Or.inl ?_, ?_⟩
    · rintro ⟨o, h⟩
      cases o with
      | none => exact Or.inr ⟨_, h⟩
      | some c =>
        dsimp only at h
        split_ifs at h
        · exact Or.inr ⟨_, h⟩
        · rcases h with h | ⟨o, h⟩
          · exact Or.inl h
          · cases o with
            | none => exact Or.inr ⟨_, h⟩
            | some c =>
              dsimp only at h
              split at h
              · exact Or.inr ⟨_, h⟩
              · exact Or.inr ((comp _).1 h)
        · exact Or.inr ⟨_, h⟩
    · rintro ⟨o, h⟩
      cases o with
      | none => exact Or.inr ⟨_, h⟩
      | some c =>
        dsimp only at h
        split_ifs at h
        · exact Or.inr ⟨_, h⟩
        · rcases h with ⟨o, h⟩
          cases o with
          | none => exact Or.inr ⟨_, h⟩
          | some c =>
            dsimp only at h
            split at h
            · exact Or.inr ⟨_, h⟩
            · exact (comp _).2 h
        · exact Or.inr ⟨_, h⟩

theorem dirProg_touches {κ : Type} {env : Env} {a : RunArgs} {out : κ → κ} {q : κ} : ∀ {l : List (κ × Bool)},
    ((dirProg env a out l).Reads q → (q, true) ∈ l) ∧ ((dirProg env a out l).Writes q → ∃ p, (p, true) ∈ l ∧ q = out p)
  | [] => ⟨False.elim, False.elim⟩
  | (p, false) :: l => by
    rw [dirProg, if_neg (by simp)]
    exact ⟨fun h => List.mem_cons_of_mem _ (dirProg_touches.1 h), fun h => (dirProg_touches.2 h).imp fun p hp => ⟨List.mem_cons_of_mem _ hp.1, hp.2⟩⟩
  | (p, true) :: l => by
    rw [dirProg, if_pos rfl]
    have r : (dirProg env a out l).Reads q → (q, true) ∈ (p, true) :: l := fun h => List.mem_cons_of_mem _ (dirProg_touches.1 h)
    have w : (dirProg env a out l).Writes q → ∃ p', (p', true) ∈ (p, true) :: l ∧ q = out p' :=
      fun h => (dirProg_touches.2 h).imp fun p hp => ⟨List.mem_cons_of_mem _ hp.1, hp.2⟩
    refine ⟨fun h => ?_, fun h => ?_⟩
    · rcases fileProg_touches.1 h with rfl | ⟨e, h⟩
      · exact List.mem_cons_self
      · cases e with
        | ok => exact r h
        | panicked => exact h.elim
        | err =>
          rcases fileProg_touches.1 h with rfl | ⟨e, h⟩
          · exact List.mem_cons_self
          · cases e with
            | ok => exact r h
            | panicked => exact h.elim
            | err => exact h.elim
    · rcases fileProg_touches.2 h with h | ⟨e, h⟩
      · exact ⟨p, List.mem_cons_self, h⟩
      · cases e with
        | ok => exact w h
        | panicked => exact h.elim
        | err =>
          rcases fileProg_touches.2 h with h | ⟨e, h⟩
          · exact ⟨p, List.mem_cons_self, h⟩
          · cases e with
            | ok => exact w h
            | panicked => exact h.elim
            | err => exact h.elim

/-- **C118, the files of atsc.** It reads its input, or the regular files of it, and writes the outputs of those. -/
theorem C118_atsc_files (env : Env) (node : List Char → Node) (ts : List Tok) (q : List Char) :
    ((Command.atsc env node ts).prog.Reads q → ∃ a, atscParse ts = .ok a ∧ q ∈ (Run.mk env a.run a.input (node a.input)).files) ∧
    ((Command.atsc env node ts).prog.Writes q → ∃ a, atscParse ts = .ok a ∧ q ∈ (Run.mk env a.run a.input (node a.input)).outs) := by
  unfold Command.prog
  dsimp only
  cases atscParse ts with
  | error s => exact ⟨False.elim, False.elim⟩
  | ok a =>
    dsimp only
    have key : ((atscProg env a.run a.input (node a.input)).Reads q → q ∈ (Run.mk env a.run a.input (node a.input)).files) ∧
        ((atscProg env a.run a.input (node a.input)).Writes q → q ∈ (Run.mk env a.run a.input (node a.input)).outs) := by
      unfold atscProg Run.outs Run.files
      cases node a.input with
      | missing => exact ⟨False.elim, False.elim⟩
      | other => exact ⟨False.elim, False.elim⟩
      | file =>
        refine ⟨fun h => ?_, fun h => ?_⟩
        · rcases fileProg_touches.1 h with rfl | ⟨e, h⟩
          · exact List.mem_singleton_self _
          · exact h.elim
        · rcases fileProg_touches.2 h with h | ⟨e, h⟩
          · exact List.mem_singleton.2 h
          · exact h.elim
      | dir names =>
        have mem : ∀ p, (p, true) ∈ (names.map fun n => (joinPath a.input n.1, n.2)) →
            p ∈ ((names.filter (·.2)).map fun n => joinPath a.input n.1) := by
          intro p hp
          obtain ⟨n, hn, he⟩ := List.mem_map.1 hp
          obtain ⟨h1, h2⟩ := Prod.mk.inj he
          exact List.mem_map.2 ⟨n, List.mem_filter.2 ⟨hn, h2⟩, h1⟩
        refine ⟨fun h => mem q (dirProg_touches.1 h), fun h => ?_⟩
        obtain ⟨p, hp, e⟩ := dirProg_touches.2 h
        exact List.mem_map.2 ⟨p, mem p hp, e.symm⟩
    exact ⟨fun h => ⟨a, rfl, key.1 h⟩, fun h => ⟨a, rfl, key.2 h⟩⟩

/-- **C118, the files of csv-compressor.** It reads the input and, when uncompressing, the `.vsri` file beside it; it writes, beside the output path (or the input),
when uncompressing the `.wbro` and the `.csv` file, otherwise the `.wavbro`, `.vsri` and `.bro` files that are asked for. -/
theorem C118_csv_files {κ : Type} (env : CsvEnv) (a : CsvArgs) (ext : κ → String → κ) (input base q : κ) :
    ((csvProg env a ext input base).Reads q → q = input ∨ a.uncompress = true ∧ q = ext input "vsri") ∧
    ((csvProg env a ext input base).Writes q →
      (a.uncompress = true ∧ (q = ext base "wbro" ∨ q = ext (ext base "wbro") "csv")) ∨
      (a.uncompress = false ∧ ((a.outputWavbrro = true ∧ q = ext base "wavbro") ∨ (a.outputVsri = true ∧ q = ext base "vsri") ∨
        (a.noCompression = false ∧ q = ext base "bro")))) := by
  unfold csvProg
  cases hu : a.uncompress with
  | true =>
    rw [if_pos rfl]
    unfold csvProgUncompress
    refine ⟨fun h => ?_, fun h => Or.inl ⟨rfl, ?_⟩⟩
    · rcases h with h | ⟨o, h⟩
      · exact Or.inl h
      cases o with
      | none => exact h.elim
      | some c =>
        dsimp only at h
        split_ifs at h
        · exact h.elim
        · rcases h with h | ⟨o, h⟩
          · exact Or.inl h
          cases o with
          | none => exact h.elim
          | some c =>
            dsimp only at h
            split at h
            · exact h.elim
            · split at h
              · exact h.elim
              · rcases h with h | ⟨o, h⟩
                · exact Or.inr ⟨rfl, h⟩
                cases o with
                | none => exact h.elim
                | some c =>
                  dsimp only at h
                  split at h
                  · exact h.elim
                  · split at h
                    · exact h.elim
                    · rw [Prog.Reads] at h
                      split at h
                      · exact h.elim
                      · exact h.elim
        · exact h.elim
    · obtain ⟨o, h⟩ := h
      cases o with
      | none => exact h.elim
      | some c =>
        dsimp only at h
        split_ifs at h
        · exact h.elim
        · obtain ⟨o, h⟩ := h
          cases o with
          | none => exact h.elim
          | some c =>
            dsimp only at h
            split at h
            · exact h.elim
            · split at h
              · exact h.elim
              · obtain ⟨o, h⟩ := h
                cases o with
                | none => exact h.elim
                | some c =>
                  dsimp only at h
                  split at h
                  · exact h.elim
                  · split at h
                    · exact h.elim
                    · rw [Prog.Writes] at h
                      rcases h with h | h
                      · exact Or.inl h
                      · split at h
                        · exact h.elim
                        · exact Or.inr (h.elim id False.elim)
        · exact h.elim
  | false =>
    rw [if_neg (by decide)]
    unfold csvProgCompress
    have bro : ∀ m, (¬ (csvProgBro env a ext base m).Reads q) ∧ ((csvProgBro env a ext base m).Writes q → a.noCompression = false ∧ q = ext base "bro") := by
      intro m
      unfold csvProgBro
      cases a.noCompression with
      | true => rw [if_pos rfl]; exact ⟨False.elim, False.elim⟩
      | false =>
        rw [if_neg (by decide)]
        cases compressData env.E env.p m.wbro.getSamples a.comp with
        | error e => exact ⟨False.elim, False.elim⟩
        | ok bs => exact ⟨False.elim, fun h => ⟨rfl, h.elim id False.elim⟩⟩
    have vsri : ∀ m, (¬ (csvProgVsri env a ext base m).Reads q) ∧ ((csvProgVsri env a ext base m).Writes q →
        (a.outputVsri = true ∧ q = ext base "vsri") ∨ (a.noCompression = false ∧ q = ext base "bro")) := by
      intro m
      unfold csvProgVsri
      cases a.outputVsri with
      | true => rw [if_pos rfl]; exact ⟨(bro m).1, fun h => h.elim (fun h => Or.inl ⟨rfl, h⟩) (fun h => Or.inr ((bro m).2 h))⟩
      | false => rw [if_neg (by decide)]; exact ⟨(bro m).1, fun h => Or.inr ((bro m).2 h)⟩
    refine ⟨fun h => Or.inl ?_, fun h => Or.inr ⟨rfl, ?_⟩⟩
    · rcases h with h | ⟨o, h⟩
      · exact h
      exfalso
      cases o with
      | none => exact h
      | some c =>
        dsimp only at h
        split at h
        · exact h
        · split at h
          · exact h
          · exact h
          · split_ifs at h
            · split at h
              · exact h
              · exact (vsri _).1 h
            · exact (vsri _).1 h
    · obtain ⟨o, h⟩ := h
      cases o with
      | none => exact h.elim
      | some c =>
        dsimp only at h
        split at h
        · exact h.elim
        · split at h
          · exact h.elim
          · exact h.elim
          · split_ifs at h with hw
            · split at h
              · exact h.elim
              · exact h.elim (fun h => Or.inl ⟨hw, h⟩) (fun h => Or.inr ((vsri _).2 h))
            · exact Or.inr ((vsri _).2 h)

/-- **C118, the files of wav2wbro.** It reads the input and writes the file called as the input with wbro instead of wav at the end. -/
theorem C118_wav_files (hound : Bytes → Option (Nat × List (Option Int))) (p : Profile) (name : List Char) (v : Bool) (q : List Char) :
    ((wavProg hound p name v).Reads q → q = name) ∧
    ((wavProg hound p name v).Writes q → ∃ stem, name = stem ++ "wav".toList ∧ q = stem ++ "wbro".toList) := by
  unfold wavProg
  refine ⟨fun h => ?_, fun h => ?_⟩
  · rcases h with h | ⟨o, h⟩
    · exact h
    cases o with
    | none => exact h.elim
    | some c =>
      dsimp only at h
      split at h
      · exact h.elim
      · exact h.elim
      · rcases h with h | ⟨o, h⟩
        · exact h
        cases o with
        | none => exact h.elim
        | some c =>
          dsimp only at h
          split at h
          · exact h.elim
          · split at h
            · exact h.elim
            · split at h
              · exact h.elim
              · split at h
                · exact h.elim
                · rw [Prog.Reads] at h
                  split_ifs at h
                  · split at h
                    · exact h.elim
                    · exact h.elim
                  · exact h.elim
  · obtain ⟨o, h⟩ := h
    cases o with
    | none => exact h.elim
    | some c =>
      dsimp only at h
      split at h
      · exact h.elim
      · exact h.elim
      · obtain ⟨o, h⟩ := h
        cases o with
        | none => exact h.elim
        | some c =>
          dsimp only at h
          split at h
          · exact h.elim
          · split at h
            · exact h.elim
            · split at h
              · exact h.elim
              · rename_i stem hs
                have hstem : name = stem ++ "wav".toList := by
                  unfold Wav.stripWav at hs
                  by_cases hsuf : "wav".toList <:+ name
                  · rw [if_pos hsuf] at hs
                    obtain ⟨l, hl⟩ := hsuf
                    cases hs
                    rw [← hl, List.length_append]
                    simp
                  · rw [if_neg hsuf] at hs; cases hs
                refine ⟨stem, hstem, ?_⟩
                split at h
                · exact h.elim
                · rw [Prog.Writes] at h
                  rcases h with h | h
                  · exact h
                  · split_ifs at h
                    · split at h
                      · exact h.elim
                      · exact h.elim
                    · exact h.elim

/-! ### Programs that share a file -/

/-- Some steps of one program while the others wait. -/
inductive Doing.Steps {κ : Type} [DecidableEq κ] : Doing κ → (κ → Option Bytes) → Doing κ → (κ → Option Bytes) → Prop
  | refl (a : Doing κ) (d : κ → Option Bytes) : Doing.Steps a d a d
  | head {a b c : Doing κ} {d e f : κ → Option Bytes} : a.Step d b e → Doing.Steps b e c f → Doing.Steps a d c f

theorem Doing.Steps.trans {κ : Type} [DecidableEq κ] {a b c : Doing κ} {d e f : κ → Option Bytes} (h : Doing.Steps a d b e) (g : Doing.Steps b e c f) :
    Doing.Steps a d c f := by
  induction h with
  | refl => exact g
  | head h _ ih => exact .head h (ih g)

theorem Doing.Steps.trace {ι κ : Type} [DecidableEq ι] [DecidableEq κ] {i : ι} {a b : Doing κ} {d e : κ → Option Bytes} (h : Doing.Steps a d b e) :
    ∀ {sched : List ι} {s t : Machine ι κ}, Machine.Trace sched s t → t.doing i = a → t.files = d →
      ∃ sched' t', Machine.Trace sched' s t' ∧ t'.doing i = b ∧ t'.files = e ∧ ∀ k, k ≠ i → t'.doing k = t.doing k := by
  induction h with
  | refl a d => intro sched s t ht h1 h2; exact ⟨sched, t, ht, h1, h2, fun _ _ => rfl⟩
  | head h _ ih =>
    intro sched s t ht h1 h2
    subst h1 h2
    obtain ⟨sched', t', g1, g2, g3, g4⟩ := ih (ht.step h) (if_pos rfl) rfl
    exact ⟨sched', t', g1, g2, g3, fun k hk => (g4 k hk).trans (if_neg hk)⟩

theorem patch_nil (b : Bytes) : patch [] 0 b = b := by simp [patch]

theorem put_put {κ : Type} [DecidableEq κ] (d : κ → Option Bytes) (p : κ) (a b : Bytes) : put (put d p a) p b = put d p b := by
  funext q; unfold put; split_ifs <;> rfl

theorem read_steps {κ : Type} [DecidableEq κ] (d : κ → Option Bytes) (p : κ) (off : Nat) (len : Option Nat) (next : Option Bytes → Prog κ) :
    Doing.Steps (.at_ (.read p off len next)) d (.at_ (next ((d p).map (portion off len)))) d := by
  cases hp : d p with
  | none => exact .head (.missing hp) (.refl _ _)
  | some c =>
    refine .head (.opened hp) ?_
    rw [Option.map_some]
    rcases Nat.eq_zero_or_pos (portion off len c).length with h0 | h0
    · have hn : portion off len c = [] := List.length_eq_zero_iff.1 h0
      have := Doing.Step.readAll (next := next) (got := []) hp (by rw [h0]; exact Nat.zero_le _)
      rw [hn]
      exact .head this (.refl _ _)
    · have h1 := Doing.Step.more (next := next) (got := []) (n := (portion off len c).length) hp h0 h0
      rw [List.nil_append, List.length_nil, List.drop_zero, List.take_length] at h1
      exact .head h1 (.head (.readAll hp (Nat.le_refl _)) (.refl _ _))

theorem create_steps {κ : Type} [DecidableEq κ] (d : κ → Option Bytes) (p : κ) (c : Bytes) (next : Prog κ) (n : Nat) :
    ∃ a, Doing.Steps (.at_ (.write p c next)) d a (put d p (c.take n)) := by
  rcases Nat.eq_zero_or_pos n with h0 | h0
  · subst h0; exact ⟨_, .head .create (.refl _ _)⟩
  · by_cases hc : c = []
    · subst hc; rw [List.take_nil]; exact ⟨_, .head .create (.refl _ _)⟩
    · have h1 := Doing.Step.write (d := put d p []) (p := p) (pos := 0) (next := next) (put_same _ _ _) hc h0
      rw [patch_nil, put_put] at h1
      exact ⟨_, .head .create (.head h1 (.refl _ _))⟩

theorem write_steps {κ : Type} [DecidableEq κ] (d : κ → Option Bytes) (p : κ) (c : Bytes) (next : Prog κ) :
    Doing.Steps (.at_ (.write p c next)) d (.at_ next) (put d p c) := by
  by_cases hc : c = []
  · subst hc; exact .head .create (.head .close (.refl _ _))
  · have h1 := Doing.Step.write (d := put d p []) (p := p) (pos := 0) (next := next) (put_same _ _ _) hc (List.length_pos_iff.2 hc)
    rw [patch_nil, put_put, List.take_length, List.drop_length] at h1
    exact .head .create (.head h1 (.head .close (.refl _ _)))

/-- A program can run to its end while the others wait. -/
theorem alone_steps {κ : Type} [DecidableEq κ] : ∀ (p : Prog κ) (d : κ → Option Bytes), Doing.Steps (.at_ p) d (.at_ (.done (p.alone d).2)) (p.alone d).1
  | .done _, _ => .refl _ _
  | .read p off len next, d => (read_steps d p off len next).trans (alone_steps (next _) d)
  | .write p c next, d => (write_steps d p c next).trans (alone_steps next _)

/-- It can stop with any beginning of what it stores in a file. -/
theorem stores_steps {κ : Type} [DecidableEq κ] : ∀ (p : Prog κ) (d : κ → Option Bytes) {q : κ} {b : Bytes} (n : Nat), p.Stores d q b →
    ∃ a d', Doing.Steps (.at_ p) d a d' ∧ d' q = some (b.take n) ∧ ∀ r, ¬ p.Writes r → d' r = d r
  | .done _, _, _, _, _, h => h.elim
  | .read p off len next, d, q, b, n, h => by
    obtain ⟨a, d', h1, h2, h3⟩ := stores_steps (next _) d n h
    exact ⟨a, d', (read_steps d p off len next).trans h1, h2, fun r hr => h3 r (fun hw => hr ⟨_, hw⟩)⟩
  | .write p c next, d, q, b, n, h => by
    rcases h with ⟨rfl, rfl⟩ | h
    · obtain ⟨a, h1⟩ := create_steps d q b next n
      exact ⟨a, _, h1, put_same _ _ _, fun r hr => put_other _ _ (fun e => hr (Or.inl e))⟩
    · obtain ⟨a, d', h1, h2, h3⟩ := stores_steps next (put d p c) n h
      exact ⟨a, d', (write_steps d p c next).trans h1, h2,
        fun r hr => (h3 r (fun hw => hr (Or.inr hw))).trans (put_other _ _ (fun e => hr (Or.inl e)))⟩

/-- **C118 [a program must not read what another writes].** Let the program `i` store `b` in the file `q` and the program `k` touch no other file that `i` writes.
Then `k` can come to its end as if it had found in `q` only the first `n` bytes of `b`, for any `n`. -/
theorem C118_refuted_shared {ι κ : Type} [DecidableEq ι] [DecidableEq κ] (progs : ι → Prog κ) (d : κ → Option Bytes) (i k : ι) (hik : k ≠ i) (q : κ) (b : Bytes)
    (hs : (progs i).Stores d q b) (ho : ∀ r, r ≠ q → (progs k).Reads r ∨ (progs k).Writes r → ¬ (progs i).Writes r) (n : Nat) :
    ∃ sched t, Machine.Trace sched (.begin progs d) t ∧ t.doing k = .at_ (.done ((progs k).alone (put d q (b.take n))).2) := by
  obtain ⟨a, d', h1, h2, h3⟩ := stores_steps (progs i) d n hs
  obtain ⟨s1, t1, g1, g2, g3, g4⟩ := h1.trace (i := i) (.nil (.begin progs d)) rfl rfl
  obtain ⟨s2, t2, f1, f2, -, -⟩ := (alone_steps (progs k) d').trace (i := k) g1 (g4 k hik) g3
  refine ⟨s2, t2, f1, ?_⟩
  rw [f2, (Prog.alone_local (progs k) (d := d') (e := put d q (b.take n)) ?_).1]
  intro r hr
  by_cases h : r = q
  · subst h; rw [h2, put_same]
  · rw [h3 r (ho r h hr), put_other _ _ h]

/-! ### Examples -/

/-- Two channels of one value each, whatever the file. -/
def progHound : Bytes → Option (Nat × List (Option Int)) := fun _ => some (1, [some 5, some 6])

/-- A CSV file, a WAV file, a WBRO file, and the WBRO file of an earlier run of wav2wbro. -/
def progDisk : Disk := fun q =>
  if q = "c.csv".toList then some [1, 2]
  else if q = "a.wav".toList then some [82, 73, 70, 70, 0, 0, 0, 0, 87, 65, 86, 69]
  else if q = "y.wbro".toList then (WavBrro.toFileWithData [F64.lit 2]).toOption
  else if q = "a.wbro".toList then (WavBrro.toFileWithData [F64.lit 9, F64.lit 9]).toOption else none

def progAtsc (name : String) : Command := .atsc demoEnv (fun _ => .file) [name.toList]
def progCsv : Command := .csv demoCsvEnv (fun _ => true) ["c.csv".toList]
def progWav : Command := .wav progHound .debug ["a.wav".toList]

theorem prog_csv_eq : ∃ a : CsvArgs, a.uncompress = false ∧ progCsv.prog = csvProg demoCsvEnv a (fun p e => setExtension p e.toList) "c.csv".toList "c.csv".toList :=
  ⟨⟨⟨.auto, 5, 0⟩, none, false, false, false, false⟩, rfl, rfl⟩

theorem prog_wav_eq : progWav.prog = wavProg progHound .debug "a.wav".toList false := rfl

theorem prog_atsc_touches (name : String) (hne : name.toList ≠ []) (hp : Plain name.toList) (q : List Char) :
    ((progAtsc name).prog.Reads q → q = name.toList) ∧ ((progAtsc name).prog.Writes q → q = setExtension name.toList "bro".toList) := by
  obtain ⟨a, p1, i1, u1, -, -⟩ := (C107_words name.toList hne hp).1
  obtain ⟨h1, h2⟩ := C118_atsc_files demoEnv (fun _ => .file) [name.toList] q
  refine ⟨fun h => ?_, fun h => ?_⟩
  · obtain ⟨a', e, hm⟩ := h1 h
    rw [p1] at e; cases e
    rw [i1] at hm
    exact List.mem_singleton.1 hm
  · obtain ⟨a', e, hm⟩ := h2 h
    rw [p1] at e; cases e
    rw [i1] at hm
    have := List.mem_singleton.1 hm
    rw [this]
    unfold RunArgs.outExt
    rw [if_neg (by rw [u1]; decide)]

theorem prog_csv_touches (q : List Char) : (progCsv.prog.Reads q → q = "c.csv".toList) ∧ (progCsv.prog.Writes q → q ∈ ["c.wavbro".toList, "c.vsri".toList, "c.bro".toList]) := by
  obtain ⟨a, hu, e⟩ := prog_csv_eq
  rw [e]
  obtain ⟨h1, h2⟩ := C118_csv_files demoCsvEnv a (fun p e => setExtension p e.toList) "c.csv".toList "c.csv".toList q
  rw [hu] at h1 h2
  refine ⟨fun h => (h1 h).elim id (fun h => absurd h.1 (by decide)), fun h => ?_⟩
  rcases h2 h with h | ⟨-, ⟨-, h⟩ | ⟨-, h⟩ | ⟨-, h⟩⟩
  · exact absurd h.1 (by decide)
  · rw [h]; decide +kernel
  · rw [h]; decide +kernel
  · rw [h]; decide +kernel

theorem prog_wav_touches (q : List Char) : (progWav.prog.Reads q → q = "a.wav".toList) ∧ (progWav.prog.Writes q → q = "a.wbro".toList) := by
  rw [prog_wav_eq]
  obtain ⟨h1, h2⟩ := C118_wav_files progHound .debug "a.wav".toList false q
  refine ⟨h1, fun h => ?_⟩
  obtain ⟨stem, e, h⟩ := h2 h
  have e' : "a.".toList ++ "wav".toList = stem ++ "wav".toList := e
  rw [h, ← List.append_cancel_right e']
  rfl

/-- All three at the same time: atsc on `y.wbro`, csv-compressor on `c.csv` and wav2wbro on `a.wav`. -/
def progAll (i : Option Bool) : Prog (List Char) :=
  match i with
  | none => (progAtsc "y.wbro").prog
  | some true => progCsv.prog
  | some false => progWav.prog

theorem prog_apart : ProgsApart progAll := by
  have ha := prog_atsc_touches "y.wbro" (by decide) (Or.inr (by decide +kernel))
  have ho : setExtension "y.wbro".toList "bro".toList = "y.bro".toList := by decide +kernel
  rw [ho] at ha
  intro i k hik q hw
  rcases i with - | - | - <;> rcases k with - | - | -
  all_goals first | exact absurd rfl hik | skip
  · have := (ha q).2 hw; subst this
    exact ⟨fun h => absurd ((prog_wav_touches _).1 h) (by decide +kernel), fun h => absurd ((prog_wav_touches _).2 h) (by decide +kernel)⟩
  · have := (ha q).2 hw; subst this
    exact ⟨fun h => absurd ((prog_csv_touches _).1 h) (by decide +kernel), fun h => absurd ((prog_csv_touches _).2 h) (by decide +kernel)⟩
  · have := (prog_wav_touches q).2 hw; subst this
    exact ⟨fun h => absurd ((ha _).1 h) (by decide +kernel), fun h => absurd ((ha _).2 h) (by decide +kernel)⟩
  · have := (prog_wav_touches q).2 hw; subst this
    exact ⟨fun h => absurd ((prog_csv_touches _).1 h) (by decide +kernel), fun h => absurd ((prog_csv_touches _).2 h) (by decide +kernel)⟩
  · have hm := (prog_csv_touches q).2 hw
    have k1 : ∀ r ∈ ["c.wavbro".toList, "c.vsri".toList, "c.bro".toList], r ≠ "y.wbro".toList ∧ r ≠ "y.bro".toList := by decide +kernel
    exact ⟨fun h => (k1 q hm).1 ((ha _).1 h), fun h => (k1 q hm).2 ((ha _).2 h)⟩
  · have hm := (prog_csv_touches q).2 hw
    have k1 : ∀ r ∈ ["c.wavbro".toList, "c.vsri".toList, "c.bro".toList], r ≠ "a.wav".toList ∧ r ≠ "a.wbro".toList := by decide +kernel
    exact ⟨fun h => (k1 q hm).1 ((prog_wav_touches _).1 h), fun h => (k1 q hm).2 ((prog_wav_touches _).2 h)⟩

/-- Each of them, run alone, ends well and leaves its output. -/
theorem prog_alone : ((progAll none).alone progDisk).2 = 0 ∧ (((progAll none).alone progDisk).1 "y.bro".toList).isSome = true ∧
    ((progAll (some false)).alone progDisk).2 = 0 ∧ (((progAll (some false)).alone progDisk).1 "a.wbro".toList).isSome = true := by decide +kernel

theorem prog_alone_csv : ((progAll (some true)).alone progDisk).2 = 0 ∧ (((progAll (some true)).alone progDisk).1 "c.bro".toList).isSome = true := by decide +kernel

/-- So they do at the same time, whatever the schedule; and they can all be brought to their ends. -/
example : ∃ sched t, Machine.Trace sched (.begin progAll progDisk) t ∧ ∀ i, t.doing i = .at_ (.done 0) := by
  obtain ⟨more, t, h1, h2⟩ := C118_completes progAll prog_apart progDisk [] _ (.nil _)
  refine ⟨_, t, h1, fun i => ?_⟩
  obtain ⟨s, hs⟩ := h2 i
  have := (C118_alone progAll prog_apart progDisk _ t h1 i s hs).1
  rw [hs, this]
  rcases i with - | - | -
  · rw [prog_alone.1]
  · rw [prog_alone.2.2.1]
  · rw [prog_alone_csv.1]

/-- wav2wbro on `a.wav` and atsc on `a.wbro`. -/
def progClash (i : Bool) : Prog (List Char) := if i then progWav.prog else (progAtsc "a.wbro").prog

theorem prog_clash_alone : ((progAtsc "a.wbro").prog.alone progDisk).2 = 0 ∧ (progWav.prog.alone progDisk).2 = 0 ∧
    ((progAtsc "a.wbro").prog.alone (progWav.prog.alone progDisk).1).2 = 0 ∧
    ((progAtsc "a.wbro").prog.alone (put progDisk "a.wbro".toList (((progWav.prog.alone progDisk).1 "a.wbro".toList).getD [] |>.take 12))).2 = 101 := by decide +kernel

/-- A file that is not as it was has been stored. -/
theorem alone_stores {κ : Type} [DecidableEq κ] : ∀ (p : Prog κ) (d : κ → Option Bytes) (q : κ),
    (p.alone d).1 q = d q ∨ ∃ b, p.Stores d q b ∧ (p.alone d).1 q = some b
  | .done _, _, _ => Or.inl rfl
  | .read _ _ _ next, d, q => alone_stores (next _) d q
  | .write p c next, d, q => by
    rcases alone_stores next (put d p c) q with h | ⟨b, h1, h2⟩
    · by_cases hq : q = p
      · subst hq; exact Or.inr ⟨c, Or.inl ⟨rfl, rfl⟩, h.trans (put_same _ _ _)⟩
      · exact Or.inl (h.trans (put_other _ _ hq))
    · exact Or.inr ⟨b, Or.inr h1, h2⟩

theorem prog_clash_changes : (progWav.prog.alone progDisk).1 "a.wbro".toList ≠ progDisk "a.wbro".toList := by decide +kernel

/-- **C118 [a program must not read what another writes], a case.** wav2wbro on `a.wav` and atsc on `a.wbro` at the same time: atsc can panic, although it ends well
when it is run before wav2wbro and when it is run after it. -/
theorem C118_refuted_example : ((progAtsc "a.wbro").prog.alone progDisk).2 = 0 ∧ ((progAtsc "a.wbro").prog.alone (progWav.prog.alone progDisk).1).2 = 0 ∧
    ∃ sched t, Machine.Trace sched (.begin progClash progDisk) t ∧ t.doing false = .at_ (.done 101) := by
  obtain ⟨c1, -, c3, c4⟩ := prog_clash_alone
  refine ⟨c1, c3, ?_⟩
  rcases alone_stores progWav.prog progDisk "a.wbro".toList with h | ⟨b, h1, h2⟩
  · exact absurd h prog_clash_changes
  rw [h2, Option.getD_some] at c4
  obtain ⟨sched, t, g1, g2⟩ := C118_refuted_shared progClash progDisk true false (by decide) "a.wbro".toList b h1
    (fun r hr _ hw => hr ((prog_wav_touches r).2 hw)) 12
  refine ⟨sched, t, g1, ?_⟩
  rw [g2]
  exact congrArg (fun s => Doing.at_ (Prog.done s)) c4

end Atsc
