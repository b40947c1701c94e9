import Verif.Model.Concurrent
/- Whole runs of atsc at the same time, on files and on directories: `process_args` and `process_directory` (/repo/atsc/src/main.rs:29-69) around the file
operations of `process_single_file` (`Concurrent.lean`).

Simplified as in `Concurrent.lean` and `Path.lean`: `node` is what `metadata` says at the beginning and what `read_dir` yields during the run, with the answers
of `is_file()`; whatever other runs do to the directory is in that list. -/
namespace Atsc

/-- One run of atsc: environment, arguments, `--input` and what is there (main.rs:29-48). -/
structure Run where
  env : Env
  args : RunArgs
  input : List Char
  node : Node

/-- Where a run has got to. -/
inductive At where
  /-- before the next entry of the directory (main.rs:52) -/
  | visit (rest : List (List Char × Bool))
  /-- in `process_single_file`, for the second time (main.rs:65; or the only time, main.rs:35) or for the first (main.rs:55), with `rest` to come -/
  | file (again : Bool) (path : List Char) (rest : List (List Char × Bool)) (ph : Phase)
  | over (e : Ended)

/-- The beginning (main.rs:30-45). -/
def Run.first (r : Run) : At :=
  match r.node with
  | .missing => .over .err
  | .file => .file true r.input [] .start
  | .dir names => .visit names
  | .other => .over .err

/-- The steps of one run (main.rs:29-69, 234-243). -/
inductive Run.Step (r : Run) : At → Disk → At → Disk → Prop
  | last {d : Disk} : r.Step (.visit []) d (.over .ok) d
  | skip {d : Disk} {n : List Char} {rest : List (List Char × Bool)} : r.Step (.visit ((n, false) :: rest)) d (.visit rest) d
  | enter {d : Disk} {n : List Char} {rest : List (List Char × Bool)} :
      r.Step (.visit ((n, true) :: rest)) d (.file false (joinPath r.input n) rest .start) d
  | op {d d' : Disk} {b : Bool} {p : List Char} {rest : List (List Char × Bool)} {ph ph' : Phase} : (Job.mk r.env r.args p).Step ph d ph' d' →
      r.Step (.file b p rest ph) d (.file b p rest ph') d'
  | good {d : Disk} {b : Bool} {p : List Char} {rest : List (List Char × Bool)} : r.Step (.file b p rest (.ended .ok)) d (.visit rest) d
  | again {d : Disk} {p : List Char} {rest : List (List Char × Bool)} : r.Step (.file false p rest (.ended .err)) d (.file true p rest .start) d
  | fail {d : Disk} {p : List Char} {rest : List (List Char × Bool)} : r.Step (.file true p rest (.ended .err)) d (.over .err) d
  | panic {d : Disk} {b : Bool} {p : List Char} {rest : List (List Char × Bool)} : r.Step (.file b p rest (.ended .panicked)) d (.over .panicked) d

/-- Where all the runs have got to, and the files. -/
structure World (ι : Type) where
  at_ : ι → At
  disk : Disk

/-- Before anything happens. -/
def World.begin {ι : Type} (runs : ι → Run) (disk : Disk) : World ι := ⟨fun i => (runs i).first, disk⟩

/-- An execution: the runs make steps in the order `sched`. -/
inductive Runs {ι : Type} [DecidableEq ι] (runs : ι → Run) : List ι → World ι → World ι → Prop
  | nil (s : World ι) : Runs runs [] s s
  | step {sched : List ι} {s t : World ι} {i : ι} {a : At} {d : Disk} : Runs runs sched s t → (runs i).Step (t.at_ i) t.disk a d →
      Runs runs (sched ++ [i]) s ⟨fun k => if k = i then a else t.at_ k, d⟩

end Atsc
