import Verif.Model.Files
/- Model of `main` and `process_args` of /repo/atsc/src/main.rs: what the process leaves behind and its exit status.

Unlike `processDirectory`, which loses the state when a file panics, the functions here return the file system in every case. -/
namespace Atsc

/-- What `std::fs::metadata(&arguments.input)` says about the input (main.rs:30-45). -/
inductive Input where
  /-- `metadata` fails: no such path -/
  | missing
  | file (path : FPath)
  /-- a directory and the entries `read_dir` returns, in order, with `is_file()` -/
  | dir (entries : List (FPath × Bool))
  /-- neither (a device, a socket, ..) -/
  | other

/-- How `process_args` ends: `Ok`, `Err` or a panic. -/
inductive Ended where
  | ok
  | err
  | panicked
  deriving DecidableEq, Repr

/-- Exit status (main.rs:234-243): 0, `exit(1)` after an error, 101 after a panic. -/
def Ended.status : Ended → Nat
  | .ok => 0
  | .err => 1
  | .panicked => 101

/-- `process_single_file` (main.rs:70-127) with the state after a panic: every panic happens before the output file is created. -/
def runSingle (env : Env) (a : RunArgs) (fs : Fs) (path : FPath) : Fs × Ended :=
  match processSingle env a fs path with
  | .ok (fs', .ok ()) => (fs', .ok)
  | .ok (fs', .error _) => (fs', .err)
  | .error _ => (fs, .panicked)

/-- `process_directory` (main.rs:50-68). -/
def runDir (env : Env) (a : RunArgs) : Fs → List (FPath × Bool) → Fs × Ended
  | fs, [] => (fs, .ok)
  | fs, (path, isFile) :: rest =>
    if isFile then
      match runSingle env a fs path with
      | (fs1, .ok) => runDir env a fs1 rest
      | (fs1, .panicked) => (fs1, .panicked)
      | (fs1, .err) =>
        match runSingle env a fs1 path with
        | (fs2, .ok) => runDir env a fs2 rest
        | (fs2, e) => (fs2, e)
    else runDir env a fs rest

/-- `process_args` (main.rs:29-48). -/
def runArgs (env : Env) (a : RunArgs) (fs : Fs) : Input → Fs × Ended
  | .missing => (fs, .err)
  | .file path => runSingle env a fs path
  | .dir entries => runDir env a fs entries
  | .other => (fs, .err)

/-- `main` (main.rs:234-243): the file system left behind and the exit status. -/
def runMain (env : Env) (a : RunArgs) (fs : Fs) (i : Input) : Fs × Nat := ((runArgs env a fs i).1, (runArgs env a fs i).2.status)

end Atsc
