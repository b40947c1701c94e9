import Verif.Model.Programs
/- Specification for C118: what a program does when it runs alone and which files it touches. -/
namespace Atsc

/-- The files after a program that runs alone, and its exit status. -/
def Prog.alone {κ : Type} [DecidableEq κ] : Prog κ → (κ → Option Bytes) → (κ → Option Bytes) × Nat
  | .done s, d => (d, s)
  | .read p off len next, d => (next ((d p).map (portion off len))).alone d
  | .write p c next, d => next.alone (put d p c)

/-- The files a program may read (whatever it finds in them). -/
def Prog.Reads {κ : Type} : Prog κ → κ → Prop
  | .done _, _ => False
  | .read p _ _ next, q => q = p ∨ ∃ o, (next o).Reads q
  | .write _ _ next, q => next.Reads q

/-- The files a program may write. -/
def Prog.Writes {κ : Type} : Prog κ → κ → Prop
  | .done _, _ => False
  | .read _ _ _ next, q => ∃ o, (next o).Writes q
  | .write p _ next, q => q = p ∨ next.Writes q

/-- Running alone from the files `d`, the program stores `b` in the file `q` (at some time). -/
def Prog.Stores {κ : Type} [DecidableEq κ] : Prog κ → (κ → Option Bytes) → κ → Bytes → Prop
  | .done _, _, _, _ => False
  | .read p off len next, d, q, b => (next ((d p).map (portion off len))).Stores d q b
  | .write p c next, d, q, b => (q = p ∧ b = c) ∨ next.Stores (put d p c) q b

/-- No program writes a file that another one reads or writes. -/
def ProgsApart {ι κ : Type} (progs : ι → Prog κ) : Prop := ∀ i k, i ≠ k → ∀ q, (progs i).Writes q → ¬ (progs k).Reads q ∧ ¬ (progs k).Writes q

/-- The files after the programs have been run one after the other, in the order of the list. -/
def progsInTurn {ι κ : Type} [DecidableEq κ] (progs : ι → Prog κ) (d : κ → Option Bytes) (l : List ι) : κ → Option Bytes :=
  l.foldl (fun d i => ((progs i).alone d).1) d

end Atsc
