import Verif.Model.Concurrent
import Verif.Model.CsvCompressor
import Verif.Model.Wav
/- The three programs atsc, csv-compressor and wav2wbro as sequences of file operations, and any number of runs of them at the same time.

A program reads (a part of) a file and goes on with what it has read, or writes a whole file and goes on; a read and a write happen in pieces of any size, between
which the others may do anything.  The kind `κ` of the names of files is a parameter: path texts (as in `Path.lean` and `Wav.lean`) or stem and extension (as in
`Files.lean`).  Simplified: nothing fails (see `Io.lean`, `WavIo.lean`), nobody else writes, nothing is deleted, a directory is listed before the first of its files
is opened; `hound` reads the whole WAV file. -/
namespace Atsc

/-- A program: what is left of it to do. -/
inductive Prog (κ : Type) where
  /-- the end, with the exit status -/
  | done (status : Nat)
  /-- open a file and read from the offset `off` on, at most `len` bytes; `none` if there is no such file -/
  | read (path : κ) (off : Nat) (len : Option Nat) (next : Option Bytes → Prog κ)
  /-- create or truncate a file and write its content -/
  | write (path : κ) (content : Bytes) (next : Prog κ)

/-- The part of a file that is read. -/
def portion (off : Nat) (len : Option Nat) (c : Bytes) : Bytes :=
  match len with
  | none => c.drop off
  | some n => (c.drop off).take n

/-! ### atsc -/

/-- `compress_data` and the write of the `.bro` file (/repo/atsc/src/main.rs:106-111, 119-124). -/
def compressProg {κ : Type} (env : Env) (a : RunArgs) (out : κ) (d : List F64) (next : Ended → Prog κ) : Prog κ :=
  match compressData env.E env.p d a.comp with
  | .error _ => next .panicked
  | .ok bs => .write out bs (next .ok)

/-- `process_single_file` (/repo/atsc/src/main.rs:70-127): the header and then the content of a BRRO file (bro_reader.rs:24-48), the CSV file, or the header and
then the content of a WBRO file (wavbrro/src/read.rs:23-37). -/
def fileProg {κ : Type} (env : Env) (a : RunArgs) (path out : κ) (next : Ended → Prog κ) : Prog κ :=
  if a.uncompress then
    .read path 0 (some 12) fun h =>
      match h with
      | none => next .err
      | some h =>
        if h.length < 12 then next .err
        else if h.take 4 = brro then
          .read path 0 none fun c =>
            match c with
            | none => next .err
            | some bs =>
              match decompressData env.E bs with
              | .error _ => next .panicked
              | .ok d =>
                match WavBrro.toFileWithData d with
                | .error _ => next .panicked
                | .ok f => .write out f (next .ok)
        else next .ok
  else if a.csv then
    .read path 0 none fun c =>
      match c with
      | none => next .err
      | some c =>
        match readCsv env a c with
        | .error _ => next .panicked
        | .ok (.error _) => next .err
        | .ok (.ok d) => compressProg env a out d next
  else
    .read path 0 (some 12) fun h =>
      match h with
      | none => next .err
      | some h =>
        if h.length < 12 then next .err
        else if WavBrro.sliceAt h 0 4 = WavBrro.wbro ∧ WavBrro.sliceAt h 8 4 = WavBrro.wbro then
          .read path 12 none fun c =>
            match c with
            | none => next .err
            | some bs =>
              match WavBrro.fromBytes env.addr bs with
              | .error _ => next .panicked
              | .ok w => compressProg env a out w.getSamples next
        else next .err

/-- `process_directory` (main.rs:50-68); `out` gives the name of the output. -/
def dirProg {κ : Type} (env : Env) (a : RunArgs) (out : κ → κ) : List (κ × Bool) → Prog κ
  | [] => .done 0
  | (path, isFile) :: rest =>
    if isFile then
      fileProg env a path (out path) fun e =>
        match e with
        | .ok => dirProg env a out rest
        | .panicked => .done Ended.panicked.status
        | .err => fileProg env a path (out path) fun e =>
          match e with
          | .ok => dirProg env a out rest
          | e => .done e.status
    else dirProg env a out rest

/-- `main` (main.rs:29-48, 234-243) on the path `s`. -/
def atscProg (env : Env) (a : RunArgs) (s : List Char) (node : Node) : Prog (List Char) :=
  let out := fun p => setExtension p (if a.uncompress then "wbro".toList else "bro".toList)
  match node with
  | .missing => .done 1
  | .file => fileProg env a s (out s) fun e => .done e.status
  | .dir names => dirProg env a out (names.map fun n => (joinPath s n.1, n.2))
  | .other => .done 1

/-! ### csv-compressor -/

/-- The uncompress branch of `process_args` (/repo/csv-compressor/src/main.rs:148-180); `ext` is `set_extension`, `base` the `output_base`. -/
def csvProgUncompress {κ : Type} (env : CsvEnv) (ext : κ → String → κ) (input base : κ) : Prog κ :=
  .read input 0 (some 12) fun h =>
    match h with
    | none => .done 101
    | some h =>
      if h.length < 12 then .done 101
      else if h.take 4 = brro then
        .read input 0 none fun c =>
          match c with
          | none => .done 101
          | some bs =>
            match decompressData env.E bs with
            | .error _ => .done 101
            | .ok d =>
              match WavBrro.addAll env.p .new d with
              | .error _ => .done 101
              | .ok w =>
                .read (ext input "vsri") 0 none fun i =>
                  match i with
                  | none => .done 101
                  | some i =>
                    match Vsri.loadOrPanic i with
                    | .error _ => .done 101
                    | .ok v =>
                      match WavBrro.toFileWithData d with
                      | .error _ => .done 101
                      | .ok f =>
                        .write (ext base "wbro") f
                          (match Metric.getSamples env.p ⟨w, v⟩ with
                          | .error _ => .done 101
                          | .ok ss => .write (ext (ext base "wbro") "csv") (env.writeCsv ss) (.done 0))
      else .done 0

/-- `if !args.no_compression` (main.rs:199-209). -/
def csvProgBro {κ : Type} (env : CsvEnv) (a : CsvArgs) (ext : κ → String → κ) (base : κ) (m : Metric) : Prog κ :=
  if a.noCompression then .done 0
  else
    match compressData env.E env.p m.wbro.getSamples a.comp with
    | .error _ => .done 101
    | .ok bs => .write (ext base "bro") bs (.done 0)

/-- `if args.output_vsri` (main.rs:191-197). -/
def csvProgVsri {κ : Type} (env : CsvEnv) (a : CsvArgs) (ext : κ → String → κ) (base : κ) (m : Metric) : Prog κ :=
  if a.outputVsri then .write (ext base "vsri") (textBytes m.vsri.flush) (csvProgBro env a ext base m) else csvProgBro env a ext base m

/-- The compress branch of `process_args` (main.rs:181-210), with `if args.output_wavbrro` (185-189). -/
def csvProgCompress {κ : Type} (env : CsvEnv) (a : CsvArgs) (ext : κ → String → κ) (input base : κ) : Prog κ :=
  .read input 0 none fun c =>
    match c with
    | none => .done 101
    | some c =>
      match env.readCsv c with
      | none => .done 101
      | some ss =>
        match Metric.fromSamples env.p env.valid ss with
        | .error _ => .done 101
        | .ok (.error _) => .done 101
        | .ok (.ok m) =>
          if a.outputWavbrro then
            match m.wbro.toFile with
            | .error _ => .done 101
            | .ok f => .write (ext base "wavbro") f (csvProgVsri env a ext base m)
          else csvProgVsri env a ext base m

/-- `process_args` (main.rs:141-211) with the input and the `output_base` (of the arguments `a` the field `output` is not used). -/
def csvProg {κ : Type} (env : CsvEnv) (a : CsvArgs) (ext : κ → String → κ) (input base : κ) : Prog κ :=
  if a.uncompress then csvProgUncompress env ext input base else csvProgCompress env a ext input base

/-! ### wav2wbro -/

/-- `main` of wav2wbro (/repo/tools/src/bin/wav2wbro.rs:84-109): the header, then the content by `hound`, then the output. -/
def wavProg (hound : Bytes → Option (Nat × List (Option Int))) (p : Profile) (name : List Char) (validateFlag : Bool) : Prog (List Char) :=
  .read name 0 (some 12) fun h =>
    match h with
    | none => .done 101
    | some h =>
      match Wav.isWav h with
      | .error _ => .done 101
      | .ok false => .done 101
      | .ok true =>
        .read name 0 none fun c =>
          match c with
          | none => .done 101
          | some content =>
            match Wav.readWav hound content with
            | .error _ => .done 101
            | .ok data =>
              match WavBrro.addAll p .new (data.filter fun x => !x.isNaN) with
              | .error _ => .done 101
              | .ok w =>
                match Wav.stripWav name with
                | none => .done 101
                | some stem =>
                  match w.toFile with
                  | .error _ => .done 101
                  | .ok out =>
                    .write (stem ++ "wbro".toList) out
                      (if validateFlag then
                        match Wav.validate data w.getSamples with
                        | .ok () => .done 0
                        | .error _ => .done 101
                      else .done 0)

/-! ### From the command line -/

/-- A command: one of the three programs (atsc/src/main.rs:234-243, csv-compressor/src/main.rs:213-234, wav2wbro.rs:84-109) and its arguments. -/
inductive Command where
  | atsc (env : Env) (node : List Char → Node) (ts : List Tok)
  | csv (env : CsvEnv) (isFile : List Char → Bool) (ts : List Tok)
  | wav (hound : Bytes → Option (Nat × List (Option Int))) (p : Profile) (ts : List Tok)

/-- What it does. -/
def Command.prog : Command → Prog (List Char)
  | .atsc env node ts =>
    match atscParse ts with
    | .error s => .done s.status
    | .ok a => atscProg env a.run a.input (node a.input)
  | .csv env isFile ts =>
    match csvCmd.run none false [] ts with
    | .error s => .done s.status
    | .ok seen =>
      match csvBuild FPath.ofPath seen with
      | .error s => .done s.status
      | .ok (i, a) =>
        if isFile i then csvProg env a (fun p e => setExtension p e.toList) i ((seen.value .output).getD i) else .done 101
  | .wav hound p ts =>
    match wavCmd.run none false [] ts with
    | .error s => .done s.status
    | .ok seen =>
      match seen.value .input with
      | none => .done Stop.usage.status
      | some name => wavProg hound p name (seen.has .validate)

/-! ### Several programs at the same time -/

/-- Create or overwrite a file. -/
def put {κ : Type} [DecidableEq κ] (d : κ → Option Bytes) (p : κ) (b : Bytes) : κ → Option Bytes := fun q => if q = p then some b else d q

/-- Where a program has got to. -/
inductive Doing (κ : Type) where
  | at_ (p : Prog κ)
  /-- the file is open and `got` has been read -/
  | reading (path : κ) (off : Nat) (len : Option Nat) (got : Bytes) (next : Option Bytes → Prog κ)
  /-- the file is open, `pos` bytes are written, `rest` is not -/
  | writing (path : κ) (pos : Nat) (rest : Bytes) (next : Prog κ)

/-- One system call: open, read(2), write(2) (any number of bytes), close. -/
inductive Doing.Step {κ : Type} [DecidableEq κ] : Doing κ → (κ → Option Bytes) → Doing κ → (κ → Option Bytes) → Prop
  | missing {d : κ → Option Bytes} {p : κ} {off : Nat} {len : Option Nat} {next : Option Bytes → Prog κ} : d p = none →
      Doing.Step (.at_ (.read p off len next)) d (.at_ (next none)) d
  | opened {d : κ → Option Bytes} {p : κ} {off : Nat} {len : Option Nat} {next : Option Bytes → Prog κ} {c : Bytes} : d p = some c →
      Doing.Step (.at_ (.read p off len next)) d (.reading p off len [] next) d
  | more {d : κ → Option Bytes} {p : κ} {off : Nat} {len : Option Nat} {got : Bytes} {next : Option Bytes → Prog κ} {c : Bytes} {n : Nat} : d p = some c →
      got.length < (portion off len c).length → 0 < n →
      Doing.Step (.reading p off len got next) d (.reading p off len (got ++ ((portion off len c).drop got.length).take n) next) d
  | readAll {d : κ → Option Bytes} {p : κ} {off : Nat} {len : Option Nat} {got : Bytes} {next : Option Bytes → Prog κ} {c : Bytes} : d p = some c →
      (portion off len c).length ≤ got.length → Doing.Step (.reading p off len got next) d (.at_ (next (some got))) d
  | create {d : κ → Option Bytes} {p : κ} {content : Bytes} {next : Prog κ} :
      Doing.Step (.at_ (.write p content next)) d (.writing p 0 content next) (put d p [])
  | write {d : κ → Option Bytes} {p : κ} {pos n : Nat} {c rest : Bytes} {next : Prog κ} : d p = some c → rest ≠ [] → 0 < n →
      Doing.Step (.writing p pos rest next) d (.writing p (pos + (rest.take n).length) (rest.drop n) next) (put d p (patch c pos (rest.take n)))
  | close {d : κ → Option Bytes} {p : κ} {pos : Nat} {next : Prog κ} : Doing.Step (.writing p pos [] next) d (.at_ next) d

/-- Where all the programs have got to, and the files. -/
structure Machine (ι κ : Type) where
  doing : ι → Doing κ
  files : κ → Option Bytes

/-- Before anything happens. -/
def Machine.begin {ι κ : Type} (progs : ι → Prog κ) (d : κ → Option Bytes) : Machine ι κ := ⟨fun i => .at_ (progs i), d⟩

/-- An execution: the programs make steps in the order `sched`. -/
inductive Machine.Trace {ι κ : Type} [DecidableEq ι] [DecidableEq κ] : List ι → Machine ι κ → Machine ι κ → Prop
  | nil (s : Machine ι κ) : Machine.Trace [] s s
  | step {sched : List ι} {s t : Machine ι κ} {i : ι} {a : Doing κ} {d : κ → Option Bytes} : Machine.Trace sched s t → (t.doing i).Step t.files a d →
      Machine.Trace (sched ++ [i]) s ⟨fun k => if k = i then a else t.doing k, d⟩

end Atsc
