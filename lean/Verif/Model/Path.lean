import Verif.Model.Main
import Verif.Model.CommandLine
/- Model of the path strings atsc and csv-compressor work with (Unix): `PathBuf::set_extension` (std), called in /repo/atsc/src/main.rs:81, 110, 123 and
/repo/csv-compressor/src/main.rs:160-206, `DirEntry::path` (std), called in /repo/atsc/src/main.rs:53, and `main` of atsc over them.

A path is its text.  Simplified: the text is Unicode (the OS allows any bytes); two texts that name one file through links, `//` or `/./` are two files. -/
namespace Atsc

/-- The reversed path without the `/` and `/.` at its end: what `Components::next_back` passes over (std, used by set_extension in main.rs:81, 110, 123). -/
def skipEnd : List Char → List Char
  | '/' :: r => skipEnd r
  | '.' :: '/' :: r => skipEnd r
  | r => r

/-- `Path::file_name` (std), with the text in front of it: `none` if the last component is the root, `.` or `..`. -/
def fileName (s : List Char) : Option (List Char × List Char) :=
  let r := skipEnd s.reverse
  let name := (r.takeWhile (· != '/')).reverse
  if name = [] ∨ name = ['.'] ∨ name = ['.', '.'] then none else some ((r.dropWhile (· != '/')).reverse, name)

/-- `rsplit_file_at_dot` (std): stem and extension of a file name; a name whose only dot is its first character has none. -/
def splitDot (name : List Char) : List Char × Option (List Char) :=
  match name.reverse.dropWhile (· != '.') with
  | [] => (name, none)
  | [_] => (name, none)
  | _ :: b => (b.reverse, some (name.reverse.takeWhile (· != '.')).reverse)

/-- `PathBuf::set_extension(e)` for a non-empty `e` (main.rs:81, 110, 123; csv-compressor main.rs:160-206): a path without file name is left alone. -/
def setExtension (s e : List Char) : List Char :=
  match fileName s with
  | none => s
  | some (pre, name) => pre ++ (splitDot name).1 ++ '.' :: e

/-- `DirEntry::path` (main.rs:53): the directory as given, `/` unless it is there already, and the name. -/
def joinPath (dir name : List Char) : List Char :=
  if dir = [] ∨ dir.getLast? = some '/' then dir ++ name else dir ++ '/' :: name

/-- Contents of the regular files, by path. -/
abbrev Disk := List Char → Option Bytes

/-- Create or overwrite a file. -/
def Disk.write (d : Disk) (s : List Char) (b : Bytes) : Disk := fun q => if q = s then some b else d q

/-- The end of `process_single_file` when compressing (main.rs:105-111, 118-124). -/
def pathCompress (env : Env) (a : RunArgs) (disk : Disk) (s : List Char) (d : List F64) : Disk × Ended :=
  match compressData env.E env.p d a.comp with
  | .error _ => (disk, .panicked)
  | .ok bs => (disk.write (setExtension s "bro".toList) bs, .ok)

/-- `process_single_file` (main.rs:70-127). -/
def pathSingle (env : Env) (a : RunArgs) (disk : Disk) (s : List Char) : Disk × Ended :=
  match disk s with
  | none => (disk, .err)
  | some content =>
    if a.uncompress then
      match broRead content with
      | .eof => (disk, .err)
      | .notBro => (disk, .ok)
      | .bytes bs =>
        match decompressData env.E bs with
        | .error _ => (disk, .panicked)
        | .ok d =>
          match WavBrro.toFileWithData d with
          | .error _ => (disk, .panicked)
          | .ok out => (disk.write (setExtension s "wbro".toList) out, .ok)
    else if a.csv then
      match readCsv env a content with
      | .error _ => (disk, .panicked)
      | .ok (.error _) => (disk, .err)
      | .ok (.ok d) => pathCompress env a disk s d
    else
      match WavBrro.fromFile env.addr content with
      | .error _ => (disk, .panicked)
      | .ok .ioError => (disk, .err)
      | .ok .formatError => (disk, .err)
      | .ok (.samples d) => pathCompress env a disk s d

/-- `process_directory` (main.rs:50-68) on the directory `dir`; `names` is what `read_dir` yields, with `is_file()`. -/
def pathDir (env : Env) (a : RunArgs) (dir : List Char) : Disk → List (List Char × Bool) → Disk × Ended
  | disk, [] => (disk, .ok)
  | disk, (name, isFile) :: rest =>
    if isFile then
      match pathSingle env a disk (joinPath dir name) with
      | (d1, .ok) => pathDir env a dir d1 rest
      | (d1, .panicked) => (d1, .panicked)
      | (d1, .err) =>
        match pathSingle env a d1 (joinPath dir name) with
        | (d2, .ok) => pathDir env a dir d2 rest
        | (d2, e) => (d2, e)
    else pathDir env a dir disk rest

/-- What `std::fs::metadata` says about a path (main.rs:30-45), and the listing of a directory. -/
inductive Node where
  | missing
  | file
  | dir (names : List (List Char × Bool))
  | other

/-- `process_args` and `main` (main.rs:29-48, 234-243) with `--input s`: the files afterwards and the exit status. -/
def pathMain (env : Env) (a : RunArgs) (disk : Disk) (s : List Char) : Node → Disk × Nat
  | .missing => (disk, 1)
  | .file => ((pathSingle env a disk s).1, (pathSingle env a disk s).2.status)
  | .dir names => ((pathDir env a s disk names).1, (pathDir env a s disk names).2.status)
  | .other => (disk, 1)

/-- `main` of atsc (main.rs:234-243) from the arguments; `node` says what a path names. -/
def pathAtsc (env : Env) (node : List Char → Node) (disk : Disk) (ts : List Tok) : Disk × Nat :=
  match atscParse ts with
  | .error s => (disk, s.status)
  | .ok a => pathMain env a.run disk a.input (node a.input)

/-- The two parts of a path the rest of the model works with (main.rs:81, 110, 123: only the extension ever changes).  A name without extension gets the
extension `/`, which no file has: `x` and `x.` are two files. -/
def FPath.ofPath (s : List Char) : FPath :=
  match fileName s with
  | none => ⟨String.ofList s, "/"⟩
  | some (pre, name) =>
    ⟨String.ofList (pre ++ (splitDot name).1), (splitDot name).2.elim "/" String.ofList⟩

/-- What the input is, for the rest of the model (main.rs:30-45). -/
def Node.input (s : List Char) : Node → Input
  | .missing => .missing
  | .file => .file (.ofPath s)
  | .dir names => .dir (names.map fun n => (.ofPath (joinPath s n.1), n.2))
  | .other => .other

end Atsc
