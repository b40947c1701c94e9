import Verif.Model.Cli
import Verif.Model.Wavbrro
import Verif.Model.Csv
import Verif.Model.VsriFile
/- Model of the file handling of /repo/atsc/src/main.rs: `process_single_file` and `process_directory`.

A path is its stem and its extension; a file system maps paths to contents.  Not modelled here: permissions and other I/O errors (see `Io.lean`; opening a missing file
is the only one), logging, `--verbose` output (see `Verbose.lean`), short writes (see `Wavbrro.lean`).  With `--csv`, `--fields` without a comma and a missing
file `processSingle` returns the error while the code panics first; `main` never gets there, `metadata` has failed before. -/
namespace Atsc

/-- A path: everything before the last dot of the file name, and the extension (`PathBuf::set_extension` replaces it). -/
structure FPath where
  stem : String
  ext : String
  deriving DecidableEq, Repr

/-- `set_extension`. -/
def FPath.withExt (p : FPath) (e : String) : FPath := { p with ext := e }

/-- Contents of the regular files. -/
abbrev Fs := FPath → Option Bytes

/-- Create or overwrite a file. -/
def Fs.write (fs : Fs) (p : FPath) (b : Bytes) : Fs := fun q => if q = p then some b else fs q

/-- The arguments read by `process_single_file` (main.rs:176-219). -/
structure RunArgs where
  comp : CompArgs
  uncompress : Bool
  csv : Bool
  noHeader : Bool
  /-- `--fields`, whose default is `time,value` -/
  fields : List Char

/-- Errors returned (not panics). -/
inductive FileErr where
  | io
  | format
  | csv (e : CsvError)
  deriving DecidableEq, Repr

/-- The environment of a run: the external numeric libraries, the build profile, the CSV tokeniser, `str::parse::<f64>` and the address of the
buffer WavBrro reads into. -/
structure Env where
  E : Ext
  p : Profile
  rows : Bytes → List BRow
  parse : List Char → Option F64
  addr : Nat

/-- Reading the samples to compress: `--csv` (main.rs:84-97). `headers[1]` panics when `--fields` has no comma. -/
def readCsv (env : Env) (a : RunArgs) (content : Bytes) : Except Panic (Except CsvError (List F64)) := do
  let r ← if a.noHeader then readSamples env.parse (env.rows content)
    else match splitAtChar ',' a.fields with
      | tf :: vf :: _ => readSamplesWithHeaders env.parse (env.rows content) tf vf
      | _ => .error .index
  match r with
  | .error e => .ok (.error e)
  | .ok ss => .ok (.ok (ss.map (·.value)))

/-- `process_single_file` (main.rs:71-127). -/
def processSingle (env : Env) (a : RunArgs) (fs : Fs) (path : FPath) : Except Panic (Fs × Except FileErr Unit) :=
  if a.uncompress then
    match fs path with
    | none => .ok (fs, .error .io)
    | some content =>
      match broRead content with
      | .eof => .ok (fs, .error .io)
      | .notBro => .ok (fs, .ok ())
      | .bytes bs => do
        let d ← decompressData env.E bs
        let out ← WavBrro.toFileWithData d
        .ok (fs.write (path.withExt "wbro") out, .ok ())
  else if a.csv then
    match fs path with
    | none => .ok (fs, .error (.csv .openFileFailed))
    | some content => do
      match ← readCsv env a content with
      | .error e => .ok (fs, .error (.csv e))
      | .ok d =>
        let bs ← compressData env.E env.p d a.comp
        .ok (fs.write (path.withExt "bro") bs, .ok ())
  else
    match fs path with
    | none => .ok (fs, .error .io)
    | some content => do
      match ← WavBrro.fromFile env.addr content with
      | .ioError => .ok (fs, .error .io)
      | .formatError => .ok (fs, .error .format)
      | .samples d =>
        let bs ← compressData env.E env.p d a.comp
        .ok (fs.write (path.withExt "bro") bs, .ok ())

/-- `process_directory` (main.rs:50-69) over the listing `entries` (path and `is_file()`), with `proc` for `process_single_file`.
`entries` is whatever sequence `read_dir` yields during the walk, with the answer of `is_file()` when the entry is visited: it may contain files created by
the walk itself, so quantifying over all lists covers them.  Errors of `read_dir` itself are not modelled. -/
def processDirectory {σ ε : Type} (proc : σ → FPath → Except Panic (σ × Except ε Unit)) : σ → List (FPath × Bool) → Except Panic (σ × Except ε Unit)
  | s, [] => .ok (s, .ok ())
  | s, (path, isFile) :: rest =>
    if isFile then do
      let (s1, r1) ← proc s path
      match r1 with
      | .ok () => processDirectory proc s1 rest
      | .error _ => do
        let (s2, r2) ← proc s1 path
        match r2 with
        | .ok () => processDirectory proc s2 rest
        | .error e => .ok (s2, .error e)
    else processDirectory proc s rest

end Atsc
