import Verif.Model.Main
import Verif.Model.CsvCompressor
/- Model of the two programs when file operations fail: /repo/atsc/src/main.rs, /repo/csv-compressor/src/main.rs and the functions they write files with
(`std::fs::write`, /repo/wavbrro/src/write.rs, `flush_to` of /repo/vsri/src/lib.rs, `write_samples_to_csv_file` of /repo/csv-compressor/src/csv.rs).

`Files.lean`, `Main.lean` and `CsvCompressor.lean` model undisturbed runs.  Here the operating system may refuse to open a file, break off reading, refuse to create
the output, and break off writing after any number of bytes (a full disk).  Not modelled: a failing `close`, and content that changes while it is read. -/
namespace Atsc

/-- What happens when the input is read. -/
inductive ReadFault where
  | fine
  /-- the file cannot be opened, or reading it breaks off (for a CSV file: in its header) -/
  | refused
  /-- reading breaks off among the records of a CSV file, on which the program panics (atsc/src/csv.rs:59, 89: `record.unwrap()`); for other files the same as `refused` -/
  | midway
  deriving DecidableEq, Repr

/-- The answer to one `write_at` call. -/
inductive Wrote where
  | all
  /-- only so many bytes -/
  | short (n : Nat)
  | fails
  deriving DecidableEq, Repr

/-- The number of bytes written out of `len`; `none` for an error. -/
def Wrote.count (len : Nat) : Wrote → Option Nat
  | .all => some len
  | .short n => some (min n len)
  | .fails => none

/-- What the operating system does during one attempt to produce one output file. -/
structure Fault where
  read : ReadFault
  /-- the output cannot be created -/
  noCreate : Bool
  /-- a write that is repeated until everything is written (`std::fs::write`, `BufWriter`) fails after this many bytes -/
  stop : Option Nat
  /-- the answers to the two `write_at` calls (wavbrro/src/write.rs:24-26) -/
  head : Wrote
  body : Wrote
  deriving DecidableEq, Repr

/-- Nothing fails. -/
def Fault.calm : Fault := { read := .fine, noCreate := false, stop := none, head := .all, body := .all }

/-- `std::fs::write(path, bs)` and, the same but for how the program ends, `File::create` followed by buffered writes and `flush`: the file is emptied first,
then written; an error is returned, and the program ends with `bad`. -/
def writeAll (f : Fault) (bad : Ended) (fs : Fs) (o : FPath) (bs : Bytes) : Fs × Ended :=
  if f.noCreate then (fs, bad)
  else match f.stop with
    | none => (fs.write o bs, .ok)
    | some n => if n < bs.length then (fs.write o (bs.take n), bad) else (fs.write o bs, .ok)

/-- `write_wavbrro_file` (wavbrro/src/write.rs:21-27): `expect` panics on an error; the number of bytes written is ignored. -/
def writeWbro (f : Fault) (fs : Fs) (o : FPath) (content : Bytes) : Fs × Ended :=
  if f.noCreate then (fs, .panicked)
  else match f.head.count 12 with
    | none => (fs.write o [], .panicked)
    | some k1 =>
      match f.body.count content.length with
      | none => (fs.write o (WavBrro.header.take k1), .panicked)
      | some k2 => (fs.write o (WavBrro.writtenFile k1 k2 content), .ok)

/-! ### atsc -/

/-- The end of `process_single_file` (main.rs:105-110, 118-124): compress and `std::fs::write(..)?`. -/
def compressIo (env : Env) (a : RunArgs) (f : Fault) (fs : Fs) (path : FPath) (d : List F64) : Fs × Ended :=
  match compressData env.E env.p d a.comp with
  | .error _ => (fs, .panicked)
  | .ok bs => writeAll f .err fs (path.withExt "bro") bs

/-- `process_single_file` (main.rs:71-127) with failing file operations. -/
def runSingleIo (env : Env) (a : RunArgs) (f : Fault) (fs : Fs) (path : FPath) : Fs × Ended :=
  match fs path with
  | none => (fs, .err)
  | some content =>
    if f.read = .refused ∨ (f.read = .midway ∧ ¬ (a.uncompress = false ∧ a.csv = true)) then (fs, .err)
    else if f.read = .midway then (fs, .panicked)
    else if a.uncompress then
      match broRead content with
      | .eof => (fs, .err)
      | .notBro => (fs, .ok)
      | .bytes bs =>
        match decompressData env.E bs with
        | .error _ => (fs, .panicked)
        | .ok d =>
          match (WavBrro.fromSlice d).toBytes with
          | .error _ => (fs, .panicked)
          | .ok b => writeWbro f fs (path.withExt "wbro") b
    else if a.csv then
      match readCsv env a content with
      | .error _ => (fs, .panicked)
      | .ok (.error _) => (fs, .err)
      | .ok (.ok d) => compressIo env a f fs path d
    else
      match WavBrro.fromFile env.addr content with
      | .error _ => (fs, .panicked)
      | .ok .ioError => (fs, .err)
      | .ok .formatError => (fs, .err)
      | .ok (.samples d) => compressIo env a f fs path d

/-- `process_directory` (main.rs:50-68): `F k` is what happens during the `k`-th attempt at a file (a file whose first attempt fails is attempted again), and
`cut` says that `read_dir` fails after the given entries. -/
def runDirIo (env : Env) (a : RunArgs) (F : Nat → Fault) (cut : Bool) : Nat → Fs → List (FPath × Bool) → Fs × Ended
  | _, fs, [] => (fs, if cut then .err else .ok)
  | k, fs, (path, isFile) :: rest =>
    if isFile then
      match runSingleIo env a (F k) fs path with
      | (fs1, .ok) => runDirIo env a F cut (k + 1) fs1 rest
      | (fs1, .panicked) => (fs1, .panicked)
      | (fs1, .err) =>
        match runSingleIo env a (F (k + 1)) fs1 path with
        | (fs2, .ok) => runDirIo env a F cut (k + 2) fs2 rest
        | (fs2, e) => (fs2, e)
    else runDirIo env a F cut k fs rest

/-- `main` (main.rs:29-48, 234-243). -/
def runMainIo (env : Env) (a : RunArgs) (F : Nat → Fault) (cut : Bool) (fs : Fs) (i : Input) : Fs × Nat :=
  let r := match i with
    | .missing => (fs, Ended.err)
    | .file path => runSingleIo env a (F 0) fs path
    | .dir entries => runDirIo env a F cut 0 fs entries
    | .other => (fs, Ended.err)
  (r.1, r.2.status)

/-! ### csv-compressor -/

/-- What the operating system does during a run of csv-compressor. -/
structure CsvFaults where
  /-- the input can be opened and read -/
  input : Bool
  /-- the index can be opened and read -/
  index : Bool
  wbro : Fault
  vsri : Fault
  bro : Fault
  csv : Fault

/-- Nothing fails. -/
def CsvFaults.calm : CsvFaults := { input := true, index := true, wbro := .calm, vsri := .calm, bro := .calm, csv := .calm }

/-- Size of the buffer of `csv::Writer`. -/
def csvBuffer : Nat := 8 * 1024

/-- `write_samples_to_csv_file` (csv.rs:50-58) for the content `bs`.  A full buffer is written when another byte comes (no field here needs quotes, so
buffers are filled to the last byte), and an error of that write is returned.  The writer is never flushed: what is left in its buffer at the end, the last
1 to 8192 bytes, is written when it is dropped, and errors of that write are ignored. -/
def writeCsvIo (f : Fault) (fs : Fs) (o : FPath) (bs : Bytes) : Fs × Ended :=
  if f.noCreate then (fs, .panicked)
  else match f.stop with
    | none => (fs.write o bs, .ok)
    | some n =>
      if n < bs.length then (fs.write o (bs.take n), if n < (bs.length - 1) / csvBuffer * csvBuffer then .panicked else .ok)
      else (fs.write o bs, .ok)

/-- The uncompress branch of `process_args` (main.rs:148-180) with failing file operations. -/
def csvUncompressIo (env : CsvEnv) (a : CsvArgs) (f : CsvFaults) (fs : Fs) (input : FPath) : Fs × Ended :=
  match fs input with
  | none => (fs, .panicked)
  | some content =>
    if f.input = false then (fs, .panicked)
    else match broRead content with
    | .eof => (fs, .panicked)
    | .notBro => (fs, .ok)
    | .bytes bs =>
      match decompressData env.E bs with
      | .error _ => (fs, .panicked)
      | .ok d =>
        match WavBrro.addAll env.p .new d with
        | .error _ => (fs, .panicked)
        | .ok w =>
          match fs (input.withExt "vsri") with
          | none => (fs, .panicked)
          | some c =>
            if f.index = false then (fs, .panicked)
            else match Vsri.loadOrPanic c with
            | .error _ => (fs, .panicked)
            | .ok v =>
              match (WavBrro.fromSlice d).toBytes with
              | .error _ => (fs, .panicked)
              | .ok b =>
                match writeWbro f.wbro fs ((a.base input).withExt "wbro") b with
                | (fs1, .ok) =>
                  match Metric.getSamples env.p ⟨w, v⟩ with
                  | .error _ => (fs1, .panicked)
                  | .ok ss => writeCsvIo f.csv fs1 ((a.base input).withExt "csv") (env.writeCsv ss)
                | r => r

/-- `if args.output_wavbrro` (main.rs:185-189). -/
def csvFlushWavbrroIo (a : CsvArgs) (f : CsvFaults) (base : FPath) (m : Metric) (fs : Fs) : Fs × Ended :=
  if a.outputWavbrro then
    match m.wbro.toBytes with
    | .error _ => (fs, .panicked)
    | .ok b => writeWbro f.wbro fs (base.withExt "wavbro") b
  else (fs, .ok)

/-- `if args.output_vsri` (main.rs:191-197): `expect` on the error of `flush_to`. -/
def csvFlushVsriIo (a : CsvArgs) (f : CsvFaults) (base : FPath) (m : Metric) (fs : Fs) : Fs × Ended :=
  if a.outputVsri then writeAll f.vsri .panicked fs (base.withExt "vsri") (textBytes m.vsri.flush) else (fs, .ok)

/-- `if !args.no_compression` (main.rs:199-209). -/
def csvFlushBroIo (env : CsvEnv) (a : CsvArgs) (f : CsvFaults) (base : FPath) (m : Metric) (fs : Fs) : Fs × Ended :=
  if a.noCompression then (fs, .ok)
  else
    match compressData env.E env.p m.wbro.getSamples a.comp with
    | .error _ => (fs, .panicked)
    | .ok bs => writeAll f.bro .panicked fs (base.withExt "bro") bs

/-- The compress branch of `process_args` (main.rs:181-210) with failing file operations. -/
def csvCompressIo (env : CsvEnv) (a : CsvArgs) (f : CsvFaults) (fs : Fs) (input : FPath) : Fs × Ended :=
  match fs input with
  | none => (fs, .panicked)
  | some content =>
    if f.input = false then (fs, .panicked)
    else match env.readCsv content with
    | none => (fs, .panicked)
    | some ss =>
      match Metric.fromSamples env.p env.valid ss with
      | .error _ => (fs, .panicked)
      | .ok (.error _) => (fs, .panicked)
      | .ok (.ok m) =>
        match csvFlushWavbrroIo a f (a.base input) m fs with
        | (fs1, .ok) =>
          match csvFlushVsriIo a f (a.base input) m fs1 with
          | (fs2, .ok) => csvFlushBroIo env a f (a.base input) m fs2
          | r => r
        | r => r

/-- `process_args` (main.rs:141-211): the file system afterwards and how the run ended. -/
def csvRunIo (env : CsvEnv) (a : CsvArgs) (f : CsvFaults) (fs : Fs) (input : FPath) : Fs × Ended :=
  if a.uncompress then csvUncompressIo env a f fs input else csvCompressIo env a f fs input

end Atsc
