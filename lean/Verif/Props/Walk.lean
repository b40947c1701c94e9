import Verif.Model.Walk
import Verif.Props.Concurrent
/- C115: whole runs of atsc, on directories too, at the same time. -/
namespace Atsc

/-- The files a run reads. -/
def Run.files (r : Run) : List (List Char) :=
  match r.node with
  | .missing => []
  | .file => [r.input]
  | .dir names => (names.filter (·.2)).map fun n => joinPath r.input n.1
  | .other => []

/-- The files a run may write. -/
def Run.outs (r : Run) : List (List Char) := r.files.map fun s => setExtension s r.args.outExt

/-- No run writes a file another reads or writes. -/
def RunsApart {ι : Type} (runs : ι → Run) : Prop := ∀ i k, i ≠ k → ∀ o ∈ (runs i).outs, o ∉ (runs k).files ∧ o ∉ (runs k).outs

/-! ### One run alone -/

/-- The files one after the other until one fails. -/
def walk (env : Env) (a : RunArgs) : Disk → List (List Char) → Disk × Ended
  | d, [] => (d, .ok)
  | d, p :: ps =>
    match pathSingle env a d p with
    | (d1, .ok) => walk env a d1 ps
    | (d1, .err) => (d1, .err)
    | (d1, .panicked) => (d1, .panicked)

theorem walk_ok {env : Env} {a : RunArgs} {d : Disk} {p : List Char} {ps : List (List Char)} (h : (pathSingle env a d p).2 = .ok) :
    walk env a d (p :: ps) = walk env a (pathSingle env a d p).1 ps := by
  rw [walk.eq_def]
  dsimp only
  generalize hx : pathSingle env a d p = x at h
  obtain ⟨d1, e⟩ := x
  dsimp only at h
  subst h
  rfl

theorem walk_bad {env : Env} {a : RunArgs} {d : Disk} {p : List Char} {ps : List (List Char)} (h : (pathSingle env a d p).2 ≠ .ok) :
    walk env a d (p :: ps) = (d, (pathSingle env a d p).2) := by
  have hd : (pathSingle env a d p).1 = d := by
    rcases pathSingle_cases env a d p with h' | h'
    · exact h'.2
    · exact absurd h'.1 h
  rw [walk.eq_def]
  dsimp only
  generalize pathSingle env a d p = x at h hd ⊢
  obtain ⟨d1, e⟩ := x
  dsimp only at h hd ⊢
  subst hd
  cases e with
  | ok => exact absurd rfl h
  | err => rfl
  | panicked => rfl

/-- The second attempt on a file that could not be processed changes nothing. -/
theorem pathDir_walk {env : Env} {a : RunArgs} {dir : List Char} : ∀ {names : List (List Char × Bool)} {d : Disk},
    pathDir env a dir d names = walk env a d ((names.filter (·.2)).map fun n => joinPath dir n.1)
  | [], d => rfl
  | (n, false) :: rest, d => by
    rw [pathDir.eq_def]
    exact (if_neg (by decide)).trans (pathDir_walk (names := rest))
  | (n, true) :: rest, d => by
    have hc : (((n, true) :: rest).filter (·.2)).map (fun n => joinPath dir n.1) = joinPath dir n :: (rest.filter (·.2)).map fun n => joinPath dir n.1 := by
      rw [List.filter_cons_of_pos (by simp)]; rfl
    rw [hc]
    rw [pathDir.eq_def]
    refine (if_pos rfl).trans ?_
    by_cases h : (pathSingle env a d (joinPath dir n)).2 = .ok
    · rw [walk_ok h]
      generalize hx : pathSingle env a d (joinPath dir n) = x at h
      obtain ⟨d1, e⟩ := x
      dsimp only at h
      subst h
      exact pathDir_walk (names := rest)
    · rw [walk_bad h]
      have hd : (pathSingle env a d (joinPath dir n)).1 = d := by
        rcases pathSingle_cases env a d (joinPath dir n) with h' | h'
        · exact h'.2
        · exact absurd h'.1 h
      generalize hx : pathSingle env a d (joinPath dir n) = x at h hd
      obtain ⟨d1, e⟩ := x
      dsimp only at h hd
      subst hd
      cases e with
      | ok => exact absurd rfl h
      | err => dsimp only; rw [hx]
      | panicked => rfl

/-- The end a run comes to. -/
def Run.end_ (r : Run) (d : Disk) : Ended :=
  match r.node with
  | .missing => .err
  | .other => .err
  | _ => (walk r.env r.args d r.files).2

theorem Run.main_walk (r : Run) (d : Disk) :
    (pathMain r.env r.args d r.input r.node).1 = (walk r.env r.args d r.files).1 ∧ (pathMain r.env r.args d r.input r.node).2 = (r.end_ d).status := by
  unfold Run.end_ Run.files
  cases r.node with
  | missing => exact ⟨rfl, rfl⟩
  | other => exact ⟨rfl, rfl⟩
  | dir names =>
    unfold pathMain
    dsimp only
    rw [pathDir_walk]
    exact ⟨rfl, rfl⟩
  | file =>
    unfold pathMain
    dsimp only
    by_cases h : (pathSingle r.env r.args d r.input).2 = .ok
    · rw [walk_ok h, h]; exact ⟨rfl, rfl⟩
    · rw [walk_bad h]
      rcases pathSingle_cases r.env r.args d r.input with h' | h'
      · exact ⟨h'.2, rfl⟩
      · exact absurd h'.1 h

theorem walk_append {env : Env} {a : RunArgs} : ∀ {l m : List (List Char)} {d v : Disk}, walk env a d l = (v, .ok) → walk env a d (l ++ m) = walk env a v m
  | [], m, d, v, h => by cases h; rfl
  | p :: l, m, d, v, h => by
    by_cases hp : (pathSingle env a d p).2 = .ok
    · rw [walk_ok hp] at h
      rw [List.cons_append, walk_ok hp]
      exact walk_append h
    · rw [walk_bad hp] at h
      exact absurd (congrArg Prod.snd h) hp

theorem walk_other {env : Env} {a : RunArgs} : ∀ {l : List (List Char)} {d : Disk} {q : List Char}, q ∉ l.map (fun s => setExtension s a.outExt) →
    (walk env a d l).1 q = d q
  | [], d, q, _ => rfl
  | p :: l, d, q, h => by
    rw [List.map_cons, List.mem_cons, not_or] at h
    by_cases hp : (pathSingle env a d p).2 = .ok
    · rw [walk_ok hp, walk_other h.2]
      exact ((pathSingle_local (env := env) (a := a) (d := d) (d' := d) rfl).2 q).1 h.1
    · rw [walk_bad hp]

/-- What a run does depends on the files it reads only, and a file it writes or leaves alone it writes or leaves alone whatever is in it. -/
theorem walk_local {env : Env} {a : RunArgs} : ∀ {l : List (List Char)} {d d' : Disk}, (∀ s ∈ l, d s = d' s) →
    (walk env a d l).2 = (walk env a d' l).2 ∧ ∀ q, d q = d' q → (walk env a d l).1 q = (walk env a d' l).1 q
  | [], d, d', _ => ⟨rfl, fun _ h => h⟩
  | p :: l, d, d', h => by
    obtain ⟨h1, h2⟩ := pathSingle_local (env := env) (a := a) (h p List.mem_cons_self)
    by_cases hp : (pathSingle env a d p).2 = .ok
    · rw [walk_ok hp, walk_ok (h1.symm.trans hp)]
      obtain ⟨g1, g2⟩ := walk_local (env := env) (a := a) (l := l) (d := (pathSingle env a d p).1) (d' := (pathSingle env a d' p).1)
        (fun s hs => (h2 s).2 (h s (List.mem_cons_of_mem _ hs)))
      exact ⟨g1, fun q hq => g2 q ((h2 q).2 hq)⟩
    · rw [walk_bad hp, walk_bad (fun e => hp (h1.trans e))]
      exact ⟨h1, fun q hq => hq⟩

/-! ### The invariant -/

/-- The paths a run has to do with. -/
def Run.Mine (r : Run) (q : List Char) : Prop := q ∈ r.files ∨ q ∈ r.outs

def Run.job (r : Run) (p : List Char) : Job := ⟨r.env, r.args, p⟩

/-- The paths of the entries still to come. -/
def Run.paths (r : Run) (rest : List (List Char × Bool)) : List (List Char) := (rest.filter (·.2)).map fun n => joinPath r.input n.1

/-- A bound on the steps on the files of a list. -/
def Run.cost (r : Run) : Disk → List (List Char) → Nat
  | _, [] => 0
  | v, p :: ps => 2 * (r.job p).rank v .start + 5 + r.cost (pathSingle r.env r.args v p).1 ps

/-- What is known when a run has got somewhere: `k` files are done, and after them, alone, the files would be `v`; `m` bounds the steps to come. -/
inductive Run.Inv (r : Run) (d0 d : Disk) : At → Nat → Prop
  | visit {rest : List (List Char × Bool)} (k : Nat) (v : Disk) : r.paths rest = r.files.drop k → walk r.env r.args d0 (r.files.take k) = (v, .ok) →
      (∀ q, r.Mine q → d q = v q) → r.end_ d0 = (walk r.env r.args d0 r.files).2 → r.Inv d0 d (.visit rest) (rest.length + 1 + r.cost v (r.paths rest))
  | file {b : Bool} {p : List Char} {rest : List (List Char × Bool)} {ph : Phase} (k : Nat) (v : Disk) : p :: r.paths rest = r.files.drop k →
      walk r.env r.args d0 (r.files.take k) = (v, .ok) → (∀ q, r.Mine q → q ≠ (r.job p).output → d q = v q) → (r.job p).Inv v d ph →
      r.end_ d0 = (walk r.env r.args d0 r.files).2 →
      r.Inv d0 d (.file b p rest ph) (rest.length + 2 + (r.job p).rank v ph + (if b then 0 else (r.job p).rank v .start + 1) +
        r.cost (pathSingle r.env r.args v p).1 (r.paths rest))
  | over {e : Ended} : r.end_ d0 = e → (∀ q, r.Mine q → d q = (walk r.env r.args d0 r.files).1 q) → r.Inv d0 d (.over e) 0

theorem Run.first_inv (r : Run) (d0 : Disk) : ∃ m, r.Inv d0 d0 r.first m := by
  unfold Run.first
  cases hn : r.node with
  | missing => exact ⟨_, .over (by unfold Run.end_; rw [hn]) (fun q _ => by unfold Run.files; rw [hn]; rfl)⟩
  | other => exact ⟨_, .over (by unfold Run.end_; rw [hn]) (fun q _ => by unfold Run.files; rw [hn]; rfl)⟩
  | dir names => exact ⟨_, .visit 0 d0 (by unfold Run.files Run.paths; rw [hn]; rfl) rfl (fun _ _ => rfl) (by unfold Run.end_; rw [hn])⟩
  | file =>
    exact ⟨_, .file 0 d0 (by unfold Run.files Run.paths; rw [hn]; rfl) rfl (fun _ _ _ => rfl) ⟨rfl, rfl⟩ (by unfold Run.end_; rw [hn])⟩

theorem Run.mem_files {r : Run} {p : List Char} {l : List (List Char)} {k : Nat} (h : p :: l = r.files.drop k) : p ∈ r.files :=
  List.drop_subset k _ (by rw [← h]; exact List.mem_cons_self)

theorem Run.mine_out {r : Run} {p : List Char} (h : p ∈ r.files) : (r.job p).output ∈ r.outs := List.mem_map_of_mem h

theorem Run.Inv.congr {r : Run} {d0 d d' : Disk} {a : At} {m : Nat} (h : r.Inv d0 d a m) (hd : ∀ q, r.Mine q → d' q = d q) : r.Inv d0 d' a m := by
  cases h with
  | visit k v h1 h2 h3 h4 => exact .visit k v h1 h2 (fun q hq => (hd q hq).trans (h3 q hq)) h4
  | file k v h1 h2 h3 h4 h5 =>
    refine .file k v h1 h2 (fun q hq hne => (hd q hq).trans (h3 q hq hne)) (h4.congr ?_ ?_) h5
    · exact hd _ (Or.inl (r.mem_files h1))
    · exact hd _ (Or.inr (r.mine_out (r.mem_files h1)))
  | over h1 h2 => exact .over h1 (fun q hq => (hd q hq).trans (h2 q hq))

theorem Run.Step.other {r : Run} {d0 : Disk} {a a' : At} {d d' : Disk} {m : Nat} (h : r.Step a d a' d') (hi : r.Inv d0 d a m) {q : List Char} (hq : q ∉ r.outs) :
    d' q = d q := by
  cases h with
  | op hs =>
    cases hi with
    | file k v h1 => exact hs.other (fun e => hq (e ▸ r.mine_out (r.mem_files h1)))
  | _ => rfl

theorem drop_next {α : Type} {l m : List α} {p : α} {k : Nat} (h : p :: m = l.drop k) : m = l.drop (k + 1) ∧ l.take (k + 1) = l.take k ++ [p] := by
  have hk : k < l.length := by
    have := congrArg List.length h
    rw [List.length_cons, List.length_drop] at this
    omega
  rw [List.drop_eq_getElem_cons hk] at h
  injection h with h1 h2
  exact ⟨h2, by rw [List.take_succ_eq_append_getElem hk, h1]⟩

theorem Run.Step.inv {r : Run} {d0 : Disk} {a a' : At} {d d' : Disk} {m : Nat} (h : r.Step a d a' d') (hi : r.Inv d0 d a m) :
    ∃ m', r.Inv d0 d' a' m' ∧ m' < m := by
  cases h with
  | last =>
    cases hi with
    | visit k v h1 h2 h3 h4 =>
      have hk : r.files.take k = r.files := by
        have := List.drop_eq_nil_iff.mp h1.symm
        exact List.take_of_length_le this
      rw [hk] at h2
      refine ⟨0, .over (by rw [h4, h2]) (fun q hq => by rw [h3 q hq, h2]), by omega⟩
  | @skip _ n rest =>
    cases hi with
    | visit k v h1 h2 h3 h4 =>
      have hp : r.paths ((n, false) :: rest) = r.paths rest := by
        unfold Run.paths; rw [List.filter_cons_of_neg (by simp)]
      rw [hp] at h1 ⊢
      exact ⟨_, .visit k v h1 h2 h3 h4, by rw [List.length_cons]; omega⟩
  | @enter _ n rest =>
    cases hi with
    | visit k v h1 h2 h3 h4 =>
      have hp : r.paths ((n, true) :: rest) = joinPath r.input n :: r.paths rest := by
        unfold Run.paths; rw [List.filter_cons_of_pos (by simp)]; rfl
      rw [hp] at h1 ⊢
      have hm := r.mem_files h1
      refine ⟨_, .file k v h1 h2 (fun q hq _ => h3 q hq) ⟨h3 _ (Or.inl hm), h3 _ (Or.inr (r.mine_out hm))⟩ h4, ?_⟩
      rw [if_neg (by decide), List.length_cons, Run.cost]
      omega
  | @op _ _ b p rest ph ph' hs =>
    cases hi with
    | file k v h1 h2 h3 h4 h5 =>
      obtain ⟨g1, g2⟩ := Job.Step.inv (j := r.job p) hs h4
      refine ⟨_, .file k v h1 h2 (fun q hq hne => (hs.other hne).trans (h3 q hq hne)) g1 h5, ?_⟩
      omega
  | @good _ b p rest =>
    cases hi with
    | file k v h1 h2 h3 h4 h5 =>
      obtain ⟨g1, g2⟩ := h4
      obtain ⟨f1, f2⟩ := drop_next h1
      refine ⟨_, .visit (k + 1) (pathSingle r.env r.args v p).1 f1 ?_ (fun q hq => ?_) h5, ?_⟩
      · rw [f2, walk_append h2, walk_ok (env := r.env) (a := r.args) (p := p) g1]; rw [walk]
      · by_cases hne : q = (r.job p).output
        · subst hne; exact g2
        · rw [h3 q hq hne]
          exact (((pathSingle_local (env := r.env) (a := r.args) (d := v) (d' := v) rfl).2 q).1 hne).symm
      · omega
  | @again _ p rest =>
    cases hi with
    | file k v h1 h2 h3 h4 h5 =>
      obtain ⟨g1, g2⟩ := h4
      have hv : (pathSingle r.env r.args v p).1 = v := by
        rcases pathSingle_cases r.env r.args v p with h' | h'
        · exact h'.2
        · have := h'.1.symm.trans g1; cases this
      have ho : d (r.job p).output = v (r.job p).output := g2.trans (congrFun hv _)
      have hin : d p = v p := by
        by_cases hne : p = (r.job p).output
        · rw [hne]; exact ho
        · exact h3 p (Or.inl (r.mem_files h1)) hne
      refine ⟨_, .file k v h1 h2 h3 ⟨hin, ho⟩ h5, ?_⟩
      rw [if_pos rfl, if_neg (by decide)]
      have : (r.job p).rank v (.ended .err) = 1 := rfl
      omega
  | @fail _ p rest =>
    cases hi with
    | file k v h1 h2 h3 h4 h5 =>
      obtain ⟨g1, g2⟩ := h4
      have hne : (pathSingle r.env r.args v p).2 ≠ .ok := by
        have : (pathSingle r.env r.args v p).2 = .err := g1
        rw [this]; simp
      have hw : walk r.env r.args d0 r.files = (v, .err) := by
        conv_lhs => rw [← List.take_append_drop k r.files]
        rw [walk_append h2, ← h1, walk_bad hne]
        exact Prod.ext rfl g1
      have hv : (pathSingle r.env r.args v p).1 = v := by
        rcases pathSingle_cases r.env r.args v p with h' | h'
        · exact h'.2
        · exact absurd h'.1 hne
      refine ⟨0, .over (by rw [h5, hw]) (fun q hq => ?_), by omega⟩
      rw [hw]
      by_cases hqo : q = (r.job p).output
      · subst hqo; exact g2.trans (congrFun hv _)
      · exact h3 q hq hqo
  | @panic _ b p rest =>
    cases hi with
    | file k v h1 h2 h3 h4 h5 =>
      obtain ⟨g1, g2⟩ := h4
      have hne : (pathSingle r.env r.args v p).2 ≠ .ok := by
        have : (pathSingle r.env r.args v p).2 = .panicked := g1
        rw [this]; simp
      have hw : walk r.env r.args d0 r.files = (v, .panicked) := by
        conv_lhs => rw [← List.take_append_drop k r.files]
        rw [walk_append h2, ← h1, walk_bad hne]
        exact Prod.ext rfl g1
      have hv : (pathSingle r.env r.args v p).1 = v := by
        rcases pathSingle_cases r.env r.args v p with h' | h'
        · exact h'.2
        · exact absurd h'.1 hne
      refine ⟨0, .over (by rw [h5, hw]) (fun q hq => ?_), by omega⟩
      rw [hw]
      by_cases hqo : q = (r.job p).output
      · subst hqo; exact g2.trans (congrFun hv _)
      · exact h3 q hq hqo

theorem runs_inv {ι : Type} [DecidableEq ι] {runs : ι → Run} (ha : RunsApart runs) {d0 : Disk} (n : ι → Nat) (hn : ∀ i, (runs i).Inv d0 d0 (runs i).first (n i))
    {sched : List ι} {t : World ι} (h : Runs runs sched (.begin runs d0) t) :
    (∀ i, ∃ m, (runs i).Inv d0 t.disk (t.at_ i) m ∧ sched.count i + m ≤ n i) ∧ ∀ q, (∀ i, q ∉ (runs i).outs) → t.disk q = d0 q := by
  generalize hs : World.begin runs d0 = s at h
  induction h with
  | nil s => subst hs; exact ⟨fun i => ⟨n i, hn i, by simp⟩, fun _ _ => rfl⟩
  | @step sched s t i a d he hst ih =>
    obtain ⟨h1, h2⟩ := ih hs
    obtain ⟨m, g1, g2⟩ := h1 i
    refine ⟨fun k => ?_, fun q hq => (hst.other g1 (hq i)).trans (h2 q hq)⟩
    rw [List.count_append]
    by_cases hk : k = i
    · subst hk
      obtain ⟨m', f1, f2⟩ := hst.inv g1
      refine ⟨m', by simpa using f1, ?_⟩
      simp only [List.count_singleton_self]
      omega
    · obtain ⟨m', f1, f2⟩ := h1 k
      refine ⟨m', ?_, ?_⟩
      · dsimp only
        rw [if_neg hk]
        refine f1.congr (fun q hq => hst.other g1 (fun ho => ?_))
        obtain ⟨a1, a2⟩ := ha i k (Ne.symm hk) q ho
        rcases hq with hq | hq
        · exact a1 hq
        · exact a2 hq
      · rw [List.count_singleton, if_neg (by simpa using Ne.symm hk)]
        omega

theorem runs_inv' {ι : Type} [DecidableEq ι] {runs : ι → Run} (ha : RunsApart runs) {d0 : Disk} {sched : List ι} {t : World ι}
    (h : Runs runs sched (.begin runs d0) t) :
    (∀ i, ∃ m, (runs i).Inv d0 t.disk (t.at_ i) m) ∧ ∀ q, (∀ i, q ∉ (runs i).outs) → t.disk q = d0 q := by
  obtain ⟨n, hn⟩ := Classical.axiomOfChoice (fun i => (runs i).first_inv d0)
  obtain ⟨h1, h2⟩ := runs_inv ha n hn h
  exact ⟨fun i => (h1 i).imp fun m hm => hm.1, h2⟩

theorem Run.Inv.progress {r : Run} {d0 d : Disk} {a : At} {m : Nat} (h : r.Inv d0 d a m) (hn : ∀ e, a ≠ .over e) : ∃ a' d', r.Step a d a' d' := by
  cases h with
  | @visit rest k v h1 h2 h3 h4 =>
    match rest with
    | [] => exact ⟨_, _, .last⟩
    | (n, false) :: rest => exact ⟨_, _, .skip⟩
    | (n, true) :: rest => exact ⟨_, _, .enter⟩
  | @file b p rest ph k v h1 h2 h3 h4 h5 =>
    by_cases he : ∃ e, ph = .ended e
    · obtain ⟨e, rfl⟩ := he
      cases e with
      | ok => exact ⟨_, _, .good⟩
      | panicked => exact ⟨_, _, .panic⟩
      | err =>
        cases b with
        | true => exact ⟨_, _, .fail⟩
        | false => exact ⟨_, _, .again⟩
    · obtain ⟨ph', d', hs⟩ := h4.progress (fun e hx => he ⟨e, hx⟩)
      exact ⟨_, _, .op hs⟩
  | @over e _ _ => exact absurd rfl (hn e)

/-! ### The theorems -/

/-- **C115, the end of a run.** Any number of runs of atsc at the same time, on files and directories, no run writing a file another reads or writes: a run that
is over has ended with the exit status it would have had alone, and the files it reads and the files it writes are as they would be after it alone. -/
theorem C115_alone {ι : Type} [DecidableEq ι] (runs : ι → Run) (ha : RunsApart runs) (disk : Disk) (sched : List ι) (t : World ι)
    (h : Runs runs sched (.begin runs disk) t) (i : ι) (e : Ended) (he : t.at_ i = .over e) :
    e.status = (pathMain (runs i).env (runs i).args disk (runs i).input (runs i).node).2 ∧
    ∀ q, q ∈ (runs i).files ∨ q ∈ (runs i).outs → t.disk q = (pathMain (runs i).env (runs i).args disk (runs i).input (runs i).node).1 q := by
  obtain ⟨m, hi⟩ := (runs_inv' ha h).1 i
  rw [he] at hi
  obtain ⟨g1, g2⟩ := (runs i).main_walk disk
  rw [g1, g2]
  cases hi with
  | over h1 h2 => exact ⟨by rw [h1], h2⟩

/-- **C115, a run alone.** A run alone processes its files one after the other until one cannot be processed. -/
theorem C115_files (r : Run) (disk : Disk) : (pathMain r.env r.args disk r.input r.node).1 = (walk r.env r.args disk r.files).1 ∧
    (r.node ≠ .missing → r.node ≠ .other → (pathMain r.env r.args disk r.input r.node).2 = (walk r.env r.args disk r.files).2.status) := by
  refine ⟨(r.main_walk disk).1, fun h1 h2 => ?_⟩
  rw [(r.main_walk disk).2]
  unfold Run.end_
  cases hn : r.node with
  | missing => exact absurd hn h1
  | other => exact absurd hn h2
  | file => rfl
  | dir _ => rfl

/-- **C115, at every moment.** Files no run writes are as they were.  For every run there is a number `k` such that its files are as after the run alone on
its first `k` files, but for one at most, which holds a beginning of what the run alone leaves in it after the next. -/
theorem C115_always {ι : Type} [DecidableEq ι] (runs : ι → Run) (ha : RunsApart runs) (disk : Disk) (sched : List ι) (t : World ι)
    (h : Runs runs sched (.begin runs disk) t) :
    (∀ q, (∀ i, q ∉ (runs i).outs) → t.disk q = disk q) ∧
    ∀ i, ∃ k o, ∀ q, q ∈ (runs i).files ∨ q ∈ (runs i).outs →
      t.disk q = (walk (runs i).env (runs i).args disk ((runs i).files.take k)).1 q ∨
      q = o ∧ ∃ b pos, (walk (runs i).env (runs i).args disk ((runs i).files.take (k + 1))).1 o = some b ∧ t.disk o = some (b.take pos) := by
  obtain ⟨h1, h2⟩ := runs_inv' ha h
  refine ⟨h2, fun i => ?_⟩
  obtain ⟨m, hi⟩ := h1 i
  generalize (runs i) = r at hi ⊢
  generalize t.at_ i = a at hi
  cases hi with
  | visit k v g1 g2 g3 g4 => exact ⟨k, [], fun q hq => Or.inl (by rw [g2]; exact g3 q hq)⟩
  | over g1 g2 => exact ⟨r.files.length, [], fun q hq => Or.inl (by rw [List.take_length]; exact g2 q hq)⟩
  | @file b p rest ph k v g1 g2 g3 g4 g5 =>
    obtain ⟨f1, f2⟩ := drop_next g1
    have same : t.disk (r.job p).output = v (r.job p).output → ∃ k o, ∀ q, q ∈ r.files ∨ q ∈ r.outs →
      t.disk q = (walk r.env r.args disk (r.files.take k)).1 q ∨
      q = o ∧ ∃ b pos, (walk r.env r.args disk (r.files.take (k + 1))).1 o = some b ∧ t.disk o = some (b.take pos) := by
      intro hs
      refine ⟨k, [], fun q hq => Or.inl ?_⟩
      rw [g2]
      by_cases hne : q = (r.job p).output
      · rw [hne]; exact hs
      · exact g3 q hq hne
    cases ph with
    | start => exact same g4.2
    | head got => exact same g4.2.1
    | reading got => exact same g4.2.1
    | creating b => exact same g4.1
    | writing pos rest' =>
      obtain ⟨b, e1, e2, e3, e4⟩ := g4
      refine ⟨k, (r.job p).output, fun q hq => ?_⟩
      by_cases hne : q = (r.job p).output
      · right
        refine ⟨hne, b, pos, ?_, e4⟩
        have hp : pathSingle r.env r.args v p = (v.write (r.job p).output b, .ok) := e1 v rfl
        rw [f2, walk_append g2, walk_ok (by rw [hp]), hp]
        exact write_same _ _ _
      · left
        rw [g2]
        exact g3 q hq hne
    | ended e =>
      obtain ⟨e1, e2⟩ := g4
      by_cases hok : (pathSingle r.env r.args v p).2 = .ok
      · refine ⟨k + 1, [], fun q hq => Or.inl ?_⟩
        rw [f2, walk_append g2, walk_ok hok]
        by_cases hne : q = (r.job p).output
        · rw [hne]; exact e2
        · rw [g3 q hq hne]
          exact (((pathSingle_local (env := r.env) (a := r.args) (d := v) (d' := v) rfl).2 q).1 hne).symm
      · rcases pathSingle_cases r.env r.args v p with h' | h'
        · exact same (e2.trans (congrFun h'.2 _))
        · exact absurd h'.1 hok

/-- **C115, no waiting.** Whatever the others have done, a run that is not over can go on. -/
theorem C115_progress {ι : Type} [DecidableEq ι] (runs : ι → Run) (ha : RunsApart runs) (disk : Disk) (sched : List ι) (t : World ι)
    (h : Runs runs sched (.begin runs disk) t) (i : ι) (hn : ∀ e, t.at_ i ≠ .over e) : ∃ t', Runs runs (sched ++ [i]) (.begin runs disk) t' := by
  obtain ⟨m, hi⟩ := (runs_inv' ha h).1 i
  obtain ⟨a, d, hs⟩ := hi.progress hn
  exact ⟨_, .step h hs⟩

/-- **C115, termination.** There is a number of steps that a run makes at most, whatever the schedule. -/
theorem C115_bounded {ι : Type} [DecidableEq ι] (runs : ι → Run) (ha : RunsApart runs) (disk : Disk) :
    ∃ n : ι → Nat, ∀ sched t, Runs runs sched (.begin runs disk) t → ∀ i, sched.count i ≤ n i := by
  obtain ⟨n, hn⟩ := Classical.axiomOfChoice (fun i => (runs i).first_inv disk)
  refine ⟨n, fun sched t h i => ?_⟩
  obtain ⟨m, -, hm⟩ := (runs_inv ha n hn h).1 i
  omega

/-- **C115, to the end.** However far finitely many runs have got, they can all be brought to their ends. -/
theorem C115_completes {ι : Type} [DecidableEq ι] [Fintype ι] (runs : ι → Run) (ha : RunsApart runs) (disk : Disk) (sched : List ι) (t : World ι)
    (h : Runs runs sched (.begin runs disk) t) : ∃ more t', Runs runs (sched ++ more) (.begin runs disk) t' ∧ ∀ i, ∃ e, t'.at_ i = .over e := by
  obtain ⟨n, hn⟩ := C115_bounded runs ha disk
  have hlen : ∀ sched t, Runs runs sched (.begin runs disk) t → sched.length ≤ ∑ i, n i := by
    intro sched t h
    have : sched.length = ∑ i, sched.count i := by
      clear h
      induction sched with
      | nil => simp
      | cons a l ih =>
        simp only [List.length_cons, List.count_cons, Finset.sum_add_distrib, ih]
        have : (∑ x, if (a == x) = true then 1 else 0) = 1 := by
          rw [Finset.sum_eq_single_of_mem a (Finset.mem_univ a) (fun b _ hb => if_neg (by simpa using Ne.symm hb))]
          exact if_pos (by simp)
        rw [this]
    rw [this]
    exact Finset.sum_le_sum (fun i _ => hn sched t h i)
  generalize hm : (∑ i, n i) - sched.length = m
  induction m using Nat.strong_induction_on generalizing sched t with
  | _ m ih =>
    by_cases hall : ∀ i, ∃ e, t.at_ i = .over e
    · exact ⟨[], t, by rw [List.append_nil]; exact h, hall⟩
    · rw [not_forall] at hall
      obtain ⟨i, hi⟩ := hall
      obtain ⟨t1, h1⟩ := C115_progress runs ha disk sched t h i (fun e he => hi ⟨e, he⟩)
      have l1 := hlen _ _ h1
      rw [List.length_append, List.length_singleton] at l1
      obtain ⟨more, t', g1, g2⟩ := ih ((∑ k, n k) - (sched ++ [i]).length) (by rw [List.length_append, List.length_singleton]; omega) _ _ h1 rfl
      exact ⟨i :: more, t', by rw [List.append_assoc] at g1; exact g1, g2⟩

/-- The files after the runs have been done one after the other, in the order of the list. -/
def runsInTurn {ι : Type} (runs : ι → Run) (disk : Disk) (l : List ι) : Disk :=
  l.foldl (fun d i => (pathMain (runs i).env (runs i).args d (runs i).input (runs i).node).1) disk

theorem runsInTurn_spec {ι : Type} {runs : ι → Run} (ha : RunsApart runs) {d0 : Disk} : ∀ {l : List ι} {d : Disk}, l.Nodup →
    (∀ i ∈ l, ∀ q, (runs i).Mine q → d q = d0 q) →
    (∀ i ∈ l, ∀ q, (runs i).Mine q → (∀ k ∈ l, k ≠ i → q ∉ (runs k).outs) →
      runsInTurn runs d l q = (pathMain (runs i).env (runs i).args d0 (runs i).input (runs i).node).1 q) ∧
    ∀ q, (∀ i ∈ l, q ∉ (runs i).outs) → runsInTurn runs d l q = d q
  | [], d, _, _ => ⟨fun i hi => (by cases hi), fun _ _ => rfl⟩
  | i :: l, d, hn, hd => by
    obtain ⟨hi, hn'⟩ := List.nodup_cons.mp hn
    have e1 := hd i List.mem_cons_self
    have hoth : ∀ q, q ∉ (runs i).outs → (pathMain (runs i).env (runs i).args d (runs i).input (runs i).node).1 q = d q := by
      intro q hq
      rw [((runs i).main_walk d).1]
      exact walk_other hq
    have hmine : ∀ q, (runs i).Mine q → (pathMain (runs i).env (runs i).args d (runs i).input (runs i).node).1 q =
        (pathMain (runs i).env (runs i).args d0 (runs i).input (runs i).node).1 q := by
      intro q hq
      rw [((runs i).main_walk d).1, ((runs i).main_walk d0).1]
      exact (walk_local (fun s hs => e1 s (Or.inl hs))).2 q (e1 q hq)
    obtain ⟨g1, g2⟩ := runsInTurn_spec ha (d0 := d0) (l := l) (d := (pathMain (runs i).env (runs i).args d (runs i).input (runs i).node).1) hn' (fun k hk q hq => by
      have hki : i ≠ k := fun h => hi (h ▸ hk)
      rw [hoth q (fun ho => by
        obtain ⟨a1, a2⟩ := ha i k hki q ho
        rcases hq with hq | hq
        · exact a1 hq
        · exact a2 hq)]
      exact hd k (List.mem_cons_of_mem _ hk) q hq)
    have step : runsInTurn runs d (i :: l) = runsInTurn runs (pathMain (runs i).env (runs i).args d (runs i).input (runs i).node).1 l := rfl
    rw [step]
    refine ⟨fun k hk q hq hx => ?_, fun q hq => ?_⟩
    · rcases List.mem_cons.mp hk with rfl | hk'
      · rw [g2 q (fun m hm => hx m (List.mem_cons_of_mem _ hm) (fun h => hi (h ▸ hm)))]
        exact hmine q hq
      · exact g1 k hk' q hq (fun m hm hmk => hx m (List.mem_cons_of_mem _ hm) hmk)
    · rw [g2 q (fun m hm => hq m (List.mem_cons_of_mem _ hm))]
      exact hoth q (hq i List.mem_cons_self)

/-- **C115, as if in turn.** When all the runs are over the files are as after the same runs one after the other, in whatever order. -/
theorem C115_in_turn {ι : Type} [DecidableEq ι] (runs : ι → Run) (ha : RunsApart runs) (disk : Disk) (sched : List ι) (t : World ι)
    (h : Runs runs sched (.begin runs disk) t) (hend : ∀ i, ∃ e, t.at_ i = .over e) (order : List ι) (ho : order.Nodup) (hall : ∀ i, i ∈ order) :
    t.disk = runsInTurn runs disk order := by
  obtain ⟨g1, g2⟩ := runsInTurn_spec ha (d0 := disk) (l := order) (d := disk) ho (fun _ _ _ _ => rfl)
  funext q
  by_cases hq : ∃ i, q ∈ (runs i).outs
  · obtain ⟨i, hi⟩ := hq
    obtain ⟨e, he⟩ := hend i
    rw [g1 i (hall i) q (Or.inr hi) (fun k _ hk hqk => (ha k i hk q hqk).2 hi)]
    exact (C115_alone runs ha disk sched t h i e he).2 q (Or.inr hi)
  · have hq' : ∀ i, q ∉ (runs i).outs := fun i hi => hq ⟨i, hi⟩
    rw [g2 q (fun i _ => hq' i)]
    exact (runs_inv' ha h).2 q hq'

/-! ### Interrupted -/

theorem walk_append_same {env : Env} {a : RunArgs} : ∀ {l m : List (List Char)} {d d' : Disk}, walk env a d l = walk env a d' l →
    walk env a d (l ++ m) = walk env a d' (l ++ m) := by
  have bad : ∀ {l m : List (List Char)} {d : Disk}, (walk env a d l).2 ≠ .ok → walk env a d (l ++ m) = walk env a d l := by
    intro l
    induction l with
    | nil => intro m d h; exact absurd rfl h
    | cons p l ih =>
      intro m d h
      by_cases hp : (pathSingle env a d p).2 = .ok
      · rw [walk_ok hp] at h
        rw [List.cons_append, walk_ok hp, walk_ok hp]
        exact ih h
      · rw [List.cons_append, walk_bad hp, walk_bad hp]
  intro l m d d' h
  by_cases hk : (walk env a d l).2 = .ok
  · have hk' : (walk env a d' l).2 = .ok := by rw [← h]; exact hk
    rw [walk_append (v := (walk env a d l).1) (Prod.ext rfl hk), walk_append (v := (walk env a d' l).1) (Prod.ext rfl hk'), h]
  · have hk' : (walk env a d' l).2 ≠ .ok := by rw [← h]; exact hk
    rw [bad hk, bad hk', h]

/-- A file is written, with the same content whatever was in the files that are not read, or it is left alone. -/
theorem walk_writes {env : Env} {a : RunArgs} {d0 : Disk} {q : List Char} : ∀ {l : List (List Char)}, (∀ s ∈ l, ∀ s' ∈ l, setExtension s a.outExt ≠ s') →
    (∃ b, ∀ d : Disk, (∀ s ∈ l, d s = d0 s) → (walk env a d l).1 q = some b) ∨ ∀ d : Disk, (∀ s ∈ l, d s = d0 s) → (walk env a d l).1 q = d q
  | [], _ => Or.inr fun d _ => rfl
  | p :: l, ho => by
    have tail := walk_writes (env := env) (a := a) (d0 := d0) (q := q) (l := l) (fun s hs s' hs' => ho s (List.mem_cons_of_mem _ hs) s' (List.mem_cons_of_mem _ hs'))
    have loc := fun (d : Disk) (hd : d p = d0 p) => pathSingle_local (env := env) (a := a) hd
    by_cases hp : (pathSingle env a d0 p).2 = .ok
    · have hs : ∀ d : Disk, (∀ s ∈ p :: l, d s = d0 s) → walk env a d (p :: l) = walk env a (pathSingle env a d p).1 l := fun d hd =>
        walk_ok ((loc d (hd p List.mem_cons_self)).1.trans hp)
      have hag : ∀ d : Disk, (∀ s ∈ p :: l, d s = d0 s) → ∀ s ∈ l, (pathSingle env a d p).1 s = d0 s := fun d hd s hs =>
        (((loc d (hd p List.mem_cons_self)).2 s).1 (ho p List.mem_cons_self s (List.mem_cons_of_mem _ hs)).symm).trans (hd s (List.mem_cons_of_mem _ hs))
      rcases tail with ⟨b, hb⟩ | hb
      · exact Or.inl ⟨b, fun d hd => by rw [hs d hd]; exact hb _ (hag d hd)⟩
      · by_cases hq : ∃ c b, d0 p = some c ∧ Output env a c b ∧ q = setExtension p a.outExt
        · obtain ⟨c, b, hc, hob, rfl⟩ := hq
          left
          refine ⟨b, fun d hd => ?_⟩
          rw [hs d hd, hb _ (hag d hd), pathSingle_output ((hd p List.mem_cons_self).trans hc) hob]
          exact write_same _ _ _
        · right
          intro d hd
          rw [hs d hd, hb _ (hag d hd)]
          rcases pathSingle_cases env a d p with h' | ⟨-, c, hc, ⟨-, h'⟩ | ⟨b, hob, h'⟩⟩
          · rw [h'.2]
          · rw [h']
          · rw [h']
            exact if_neg (fun e => hq ⟨c, b, (hd p List.mem_cons_self).symm.trans hc, hob, e⟩)
    · right
      intro d hd
      rw [walk_bad (fun e => hp ((loc d (hd p List.mem_cons_self)).1.symm.trans e))]

/-- A file a run leaves alone is not written on the way. -/
theorem walk_prefix {env : Env} {a : RunArgs} {d0 : Disk} {q : List Char} {l : List (List Char)} (ho : ∀ s ∈ l, ∀ s' ∈ l, setExtension s a.outExt ≠ s')
    (hq : q ∉ l) (h : ∀ d : Disk, (∀ s ∈ l, d s = d0 s) → (walk env a d l).1 q = d q) (k : Nat) :
    (walk env a d0 (l.take k)).1 q = d0 q ∧ ¬ ∃ b, ∀ d : Disk, (∀ s ∈ l, d s = d0 s) → (walk env a d (l.take k)).1 q = some b := by
  have key : ¬ ∃ b, ∀ d : Disk, (∀ s ∈ l, d s = d0 s) → (walk env a d (l.take k)).1 q = some b := by
    rintro ⟨b, hb⟩
    have hag : ∀ x, ∀ s ∈ l, d0.write q x s = d0 s := fun x s hs => if_neg (fun e : s = q => hq (e ▸ hs))
    have same : walk env a (d0.write q [0]) (l.take k) = walk env a (d0.write q [1]) (l.take k) := by
      obtain ⟨g1, g2⟩ := walk_local (env := env) (a := a) (l := l.take k) (d := d0.write q [0]) (d' := d0.write q [1])
        (fun s hs => (hag _ s (List.take_subset _ _ hs)).trans (hag _ s (List.take_subset _ _ hs)).symm)
      refine Prod.ext (funext fun x => ?_) g1
      by_cases hx : x = q
      · subst hx; rw [hb _ (hag _), hb _ (hag _)]
      · exact g2 x ((if_neg hx).trans (if_neg hx).symm)
    have full := walk_append_same (m := l.drop k) same
    rw [List.take_append_drop] at full
    have e := congrFun (congrArg Prod.fst full) q
    rw [h _ (hag _), h _ (hag _), write_same, write_same] at e
    exact absurd e (by decide)
  refine ⟨?_, key⟩
  rcases walk_writes (env := env) (a := a) (d0 := d0) (q := q) (l := l.take k)
    (fun s hs s' hs' => ho s (List.take_subset _ _ hs) s' (List.take_subset _ _ hs')) with ⟨b, hb⟩ | hb
  · exact absurd ⟨b, fun d hd => hb d (fun s hs => hd s (List.take_subset _ _ hs))⟩ key
  · exact hb d0 (fun _ _ => rfl)

/-- **C115, interrupted.** Stopped at any moment, no run writing a file that it or another reads: the same runs done again, one after the other, leave what they
would have left without the first attempt. -/
theorem C115_interrupted {ι : Type} [DecidableEq ι] (runs : ι → Run) (ha : RunsApart runs) (hown : ∀ i, ∀ o ∈ (runs i).outs, o ∉ (runs i).files) (disk : Disk)
    (sched : List ι) (t : World ι) (h : Runs runs sched (.begin runs disk) t) (order : List ι) (ho : order.Nodup) (hall : ∀ i, i ∈ order) :
    runsInTurn runs t.disk order = runsInTurn runs disk order := by
  obtain ⟨g1, g2⟩ := runsInTurn_spec ha (d0 := disk) (l := order) (d := disk) ho (fun _ _ _ _ => rfl)
  obtain ⟨f1, f2⟩ := runsInTurn_spec ha (d0 := t.disk) (l := order) (d := t.disk) ho (fun _ _ _ _ => rfl)
  obtain ⟨e1, e2⟩ := runs_inv' ha h
  funext q
  by_cases hq : ∃ i, q ∈ (runs i).outs
  · obtain ⟨i, hi⟩ := hq
    have hx : ∀ k ∈ order, k ≠ i → q ∉ (runs k).outs := fun k _ hk hqk => (ha k i hk q hqk).2 hi
    rw [g1 i (hall i) q (Or.inr hi) hx, f1 i (hall i) q (Or.inr hi) hx, ((runs i).main_walk disk).1, ((runs i).main_walk t.disk).1]
    have hin : ∀ s ∈ (runs i).files, t.disk s = disk s := fun s hs => e2 s (fun k hk => by
      by_cases hki : k = i
      · subst hki; exact hown k s hk hs
      · exact (ha k i hki s hk).1 hs)
    have hoo : ∀ s ∈ (runs i).files, ∀ s' ∈ (runs i).files, setExtension s (runs i).args.outExt ≠ s' := fun s hs s' hs' e =>
      hown i _ (List.mem_map_of_mem hs) (e ▸ hs')
    have hqf : q ∉ (runs i).files := hown i q hi
    obtain ⟨m, hinv⟩ := e1 i
    generalize t.at_ i = a at hinv
    generalize (runs i) = r at hi hin hoo hqf hinv ⊢
    rcases walk_writes (env := r.env) (a := r.args) (d0 := disk) (q := q) hoo with ⟨b, hb⟩ | hb
    · rw [hb _ hin, hb _ (fun _ _ => rfl)]
    · rw [hb _ hin, hb _ (fun _ _ => rfl)]
      have pre := walk_prefix hoo hqf hb
      cases hinv with
      | visit k v k1 k2 k3 k4 => rw [k3 q (Or.inr hi), ← (pre k).1, k2]
      | over k1 k2 => rw [k2 q (Or.inr hi)]; exact hb _ (fun _ _ => rfl)
      | @file b p rest ph k v k1 k2 k3 k4 k5 =>
        have hv : v q = disk q := by rw [← (pre k).1, k2]
        by_cases hne : q = (r.job p).output
        · have hp := r.mem_files k1
          have no : ∀ b, ¬ (r.job p).Makes v b := by
            intro b hb'
            refine (pre (k + 1)).2 ⟨b, fun d hd => ?_⟩
            obtain ⟨l1, l2⟩ := walk_local (env := r.env) (a := r.args) (l := r.files.take k) (d := d) (d' := disk) (fun s hs => hd s (List.take_subset _ _ hs))
            rw [k2] at l1 l2
            have hvp : (walk r.env r.args d (r.files.take k)).1 p = v p := l2 p (hd p hp)
            have hw : pathSingle r.env r.args (walk r.env r.args d (r.files.take k)).1 p = (Disk.write (walk r.env r.args d (r.files.take k)).1 (r.job p).output b, .ok) :=
              hb' _ hvp
            rw [(drop_next k1).2, walk_append (v := (walk r.env r.args d (r.files.take k)).1) (Prod.ext rfl l1), walk_ok (by rw [hw]), hw, hne]
            exact write_same _ _ _
          have same : t.disk (r.job p).output = v (r.job p).output → t.disk q = disk q := by
            intro hs; rw [hne, hs, ← hne, hv]
          cases ph with
          | start => exact same k4.2
          | head got => exact same k4.2.1
          | reading got => exact same k4.2.1
          | creating b => exact same k4.1
          | writing pos rest' =>
            obtain ⟨b, j1, -⟩ := k4
            exact absurd j1 (no b)
          | ended e =>
            obtain ⟨j1, j2⟩ := k4
            rcases pathSingle_cases r.env r.args v p with h' | ⟨-, c, hc, ⟨-, h'⟩ | ⟨b, hob, h'⟩⟩
            · exact same (j2.trans (congrFun h'.2 _))
            · exact same (j2.trans (congrFun h' _))
            · exact absurd (fun d hd => pathSingle_output (hd.trans hc) hob) (no b)
        · rw [k3 q (Or.inr hi) hne, hv]
  · have hq' : ∀ i, q ∉ (runs i).outs := fun i hi => hq ⟨i, hi⟩
    rw [g2 q (fun i _ => hq' i), f2 q (fun i _ => hq' i)]
    exact e2 q hq'

/-! ### In place -/

/-- A run that changes something can be brought to the point where it creates its output. -/
theorem Job.reaches {j : Job} {d0 : Disk} (h : (j.alone d0).1 ≠ d0) :
    ∃ b, Relation.ReflTransGen (fun x y => j.Step x d0 y d0) .start (.creating b) ∧ j.alone d0 = (d0.write j.output b, .ok) := by
  have no : ∀ e, j.alone d0 ≠ (d0, e) := fun e he => h (by rw [he])
  cases hc : d0 j.input with
  | none =>
    refine absurd ?_ (no .err)
    unfold Job.alone pathSingle
    rw [hc]
  | some c =>
    have r1 : Relation.ReflTransGen (fun x y => j.Step x d0 y d0) .start j.first := .single (.found hc)
    have r2 : ∃ _ : j.ready c, Relation.ReflTransGen (fun x y => j.Step x d0 y d0) .start (.reading []) := by
      rcases j.first_cases with ⟨hf, hu, hv⟩ | ⟨hf, hu⟩
      · rw [hf] at r1
        exact ⟨Or.inl ⟨hu, hv⟩, r1⟩
      · rw [hf] at r1
        rcases Job.afterHead_alone hc hf with ⟨e, -, he⟩ | ha
        · exact absurd he (no e)
        · refine ⟨Or.inr ⟨hf, ha⟩, ?_⟩
          rw [← ha]
          by_cases h0 : c.length = 0
          · have : c = [] := List.length_eq_zero_iff.mp h0
            subst this
            exact r1.tail (.headDone hc (Or.inr (le_refl _)))
          · have r3 := r1.tail (.headMore (n := 12) hc (by simpa using Nat.pos_of_ne_zero h0) (by omega) (by simp))
            rw [List.nil_append, List.length_nil, List.drop_zero] at r3
            refine r3.tail (.headDone hc ?_)
            rw [List.length_take]
            omega
    obtain ⟨hr, r2⟩ := r2
    have r4 : Relation.ReflTransGen (fun x y => j.Step x d0 y d0) .start (j.afterRead (c.drop j.from)) := by
      by_cases h0 : c.length ≤ j.from
      · have : c.drop j.from = [] := List.drop_eq_nil_iff.mpr h0
        rw [this]
        exact r2.tail (.readDone hc (by simpa using h0))
      · have r3 := r2.tail (.readMore (n := c.length) hc (by simp; omega) (by omega))
        rw [List.nil_append, List.length_nil, Nat.add_zero, List.take_of_length_le (by rw [List.length_drop]; omega)] at r3
        exact r3.tail (.readDone hc (by rw [List.length_drop]; omega))
    rcases Job.afterRead_alone hc hr with ⟨e, -, he⟩ | ⟨b, hb, ha⟩
    · exact absurd he (no e)
    · rw [hb] at r4
      exact ⟨b, r4, ha⟩

/-- **C115 [a run that writes the file it reads], in place.** A run whose output is its own input (say a WBRO file called `x.bro`) can be stopped at a point
where the file is empty; doing the run again fails and leaves it empty. -/
theorem C115_refuted_in_place (r : Run) (hf : r.node = .file) (ho : setExtension r.input r.args.outExt = r.input) (disk : Disk)
    (h : (pathSingle r.env r.args disk r.input).1 ≠ disk) (hcsv : r.args.csv = true → r.args.uncompress = true) :
    ∃ sched t, Runs (fun _ : Unit => r) sched (.begin (fun _ => r) disk) t ∧ t.disk r.input = some [] ∧
      pathMain r.env r.args t.disk r.input r.node = (t.disk, 1) := by
  obtain ⟨b, hr, -⟩ := Job.reaches (j := r.job r.input) h
  have lift : ∀ {ph : Phase}, Relation.ReflTransGen (fun x y => (r.job r.input).Step x disk y disk) .start ph →
      ∃ sched, Runs (fun _ : Unit => r) sched (.begin (fun _ => r) disk) ⟨fun _ => .file true r.input [] ph, disk⟩ := by
    intro ph hx
    induction hx with
    | refl =>
      refine ⟨[], ?_⟩
      have : World.begin (fun _ : Unit => r) disk = ⟨fun _ => .file true r.input [] .start, disk⟩ := by
        unfold World.begin Run.first; dsimp only; rw [hf]
      rw [this]
      exact .nil _
    | tail _ hs ih =>
      obtain ⟨sched, ih⟩ := ih
      refine ⟨sched ++ [()], ?_⟩
      have := Runs.step (i := ()) ih (.op hs)
      simpa using this
  obtain ⟨sched, hx⟩ := lift hr
  have hy := Runs.step (i := ()) hx (.op (.create (j := r.job r.input)))
  have ho' : (r.job r.input).output = r.input := ho
  have hd : disk.write (r.job r.input).output [] r.input = some [] := by rw [ho']; exact write_same _ _ _
  refine ⟨_, _, hy, hd, ?_⟩
  dsimp only
  rw [hf]
  unfold pathMain
  dsimp only
  have : pathSingle r.env r.args (disk.write (r.job r.input).output []) r.input = (disk.write (r.job r.input).output [], .err) := by
    unfold pathSingle
    rw [hd]
    dsimp only
    split_ifs with hu hv
    · rfl
    · exact absurd (hcsv hv) hu
    · rfl
  rw [this]
  rfl

/-! ### Examples -/

/-- The directory `d` and the files `e/z.wbro`, `x.bro`, the last with samples in it. -/
def walkDisk : Disk := fun q =>
  if q = "d/x.wbro".toList then (WavBrro.toFileWithData [F64.lit 5, FP.nan, F64.lit 5, F64.lit (-7)]).toOption
  else if q = "d/y.wbro".toList then (WavBrro.toFileWithData [F64.lit 9, F64.lit 9]).toOption
  else if q = "e/z.wbro".toList then (WavBrro.toFileWithData [F64.lit 2]).toOption
  else if q = "x.bro".toList then (WavBrro.toFileWithData [F64.lit 2]).toOption
  else if q = "d/t".toList then some [1, 2] else none

/-- Two files, a directory and a file that cannot be read in `d`. -/
def walkDir : Run := ⟨demoEnv, demoArgs, "d".toList, .dir [("x.wbro".toList, true), ("sub".toList, false), ("y.wbro".toList, true), ("t".toList, true)]⟩
def walkFile : Run := ⟨demoEnv, demoArgs, "e/z.wbro".toList, .file⟩
def walkSelf : Run := ⟨demoEnv, demoArgs, "x.bro".toList, .file⟩

theorem walk_apart : RunsApart (fun i : Bool => if i then walkDir else walkFile) ∧ ∀ i : Bool, ∀ o ∈ (if i then walkDir else walkFile).outs,
    o ∉ (if i then walkDir else walkFile).files := by unfold RunsApart; decide +kernel

/-- The run on the directory fails on `t`, having written two files; the other ends well. -/
example : (pathMain demoEnv demoArgs walkDisk walkDir.input walkDir.node).2 = 1 ∧
    ((pathMain demoEnv demoArgs walkDisk walkDir.input walkDir.node).1 "d/x.bro".toList).isSome = true ∧
    ((pathMain demoEnv demoArgs walkDisk walkDir.input walkDir.node).1 "d/y.bro".toList).isSome = true ∧
    (pathMain demoEnv demoArgs walkDisk walkFile.input walkFile.node).2 = 0 ∧
    ((pathMain demoEnv demoArgs walkDisk walkFile.input walkFile.node).1 "e/z.bro".toList).isSome = true := by decide +kernel

/-- There are executions of both in which both are over. -/
example : ∃ sched t, Runs (fun i : Bool => if i then walkDir else walkFile) sched (.begin (fun i : Bool => if i then walkDir else walkFile) walkDisk) t ∧ ∀ i, ∃ e, t.at_ i = .over e := by
  obtain ⟨more, t, h1, h2⟩ := C115_completes _ walk_apart.1 walkDisk [] _ (.nil _)
  exact ⟨_, t, h1, h2⟩

/-- `x.bro` is compressed in place: it can be lost. -/
example : ∃ sched t, Runs (fun _ : Unit => walkSelf) sched (.begin (fun _ : Unit => walkSelf) walkDisk) t ∧ t.disk "x.bro".toList = some [] := by
  have hne : (pathSingle demoEnv demoArgs walkDisk "x.bro".toList).1 "x.bro".toList ≠ walkDisk "x.bro".toList := by decide +kernel
  obtain ⟨sched, t, h1, h2, -⟩ := C115_refuted_in_place walkSelf rfl (by decide +kernel) walkDisk (fun e => hne (congrFun e _)) (by decide +kernel)
  exact ⟨sched, t, h1, h2⟩

end Atsc
