import Verif.Spec.Programs
/- Specification for C120: programs that are killed, all of them or some, at any moment, and started again, any number of times. -/
namespace Atsc

/-- What happens between two times at which everything is killed: who made steps, and where everything was in the end. -/
structure Era (ι κ : Type) where
  sched : List ι
  last : Machine ι κ

/-- Time after time the programs are started afresh on the files that are there, make some steps (those that do not appear in the schedule are not started), and
are killed. -/
inductive Eras {ι κ : Type} [DecidableEq ι] [DecidableEq κ] (progs : ι → Prog κ) (d : κ → Option Bytes) : List (Era ι κ) → (κ → Option Bytes) → Prop
  | start : Eras progs d [] d
  | era {l : List (Era ι κ)} {e : κ → Option Bytes} {x : Era ι κ} : Eras progs d l e → Machine.Trace x.sched (.begin progs e) x.last →
      Eras progs d (l ++ [x]) x.last.files

/-- The program `i` came to its end in one of the eras and was not started again later. -/
def Finished {ι κ : Type} (i : ι) (l : List (Era ι κ)) : Prop :=
  ∃ before x after, l = before ++ x :: after ∧ (∃ s, x.last.doing i = .at_ (.done s)) ∧ ∀ y ∈ after, i ∉ y.sched

end Atsc
