import Verif.Model.Metric
/- Model of the file handling of /repo/csv-compressor/src/main.rs: `process_args`.

Unlike `Files.lean` the result keeps the file system also when the run panics, because this program writes several files one after the other.
The CSV text itself is produced and parsed by the `csv` and `serde` crates: the two functions are parameters of the environment. -/
namespace Atsc

/-- The environment of a run: numeric libraries, build profile, chrono's range, and the `csv` crate:
`readCsv` is `read_samples_from_csv_file` on an existing file (csv.rs:43-47; `none` is an error), `writeCsv` the content written by
`write_samples_to_csv_file` (csv.rs:50-58). -/
structure CsvEnv where
  E : Ext
  p : Profile
  valid : Int → Bool
  readCsv : Bytes → Option (List MSample)
  writeCsv : List MSample → Bytes

/-- `struct Args` (main.rs:36-81; `compress_data`, main.rs:94-125, is the one of atsc without the RLE choice, so `comp.compressor` is never `.rle`) without `output_csv`, which the program never reads. -/
structure CsvArgs where
  comp : CompArgs
  output : Option FPath
  uncompress : Bool
  noCompression : Bool
  outputVsri : Bool
  outputWavbrro : Bool

/-- `output_base` (main.rs:142-146). -/
def CsvArgs.base (a : CsvArgs) (input : FPath) : FPath := a.output.getD input

/-- The uncompress branch of `process_args` (main.rs:148-180). -/
def csvRunUncompress (env : CsvEnv) (a : CsvArgs) (fs : Fs) (input : FPath) : Fs × Except Panic Unit :=
  match fs input with
  | none => (fs, .error .unwrap)
  | some content =>
    match broRead content with
    | .eof => (fs, .error .unwrap)
    | .notBro => (fs, .ok ())
    | .bytes bs =>
      match decompressData env.E bs with
      | .error e => (fs, .error e)
      | .ok d =>
        match WavBrro.addAll env.p .new d with
        | .error e => (fs, .error e)
        | .ok w =>
          match fs (input.withExt "vsri") with
          | none => (fs, .error .unwrap)
          | some c =>
            match Vsri.loadOrPanic c with
            | .error e => (fs, .error e)
            | .ok v =>
              match WavBrro.toFileWithData d with
              | .error e => (fs, .error e)
              | .ok f =>
                let fs1 := fs.write ((a.base input).withExt "wbro") f
                match Metric.getSamples env.p ⟨w, v⟩ with
                | .error e => (fs1, .error e)
                | .ok ss => (fs1.write ((a.base input).withExt "csv") (env.writeCsv ss), .ok ())

/-- `if args.output_wavbrro` (main.rs:185-189). -/
def csvFlushWavbrro (a : CsvArgs) (base : FPath) (m : Metric) (fs : Fs) : Fs × Except Panic Unit :=
  if a.outputWavbrro then
    match m.wbro.toFile with
    | .error e => (fs, .error e)
    | .ok f => (fs.write (base.withExt "wavbro") f, .ok ())
  else (fs, .ok ())

/-- `if args.output_vsri` (main.rs:191-197). -/
def csvFlushVsri (a : CsvArgs) (base : FPath) (m : Metric) (fs : Fs) : Fs :=
  if a.outputVsri then fs.write (base.withExt "vsri") (textBytes m.vsri.flush) else fs

/-- `if !args.no_compression` (main.rs:199-209). -/
def csvFlushBro (env : CsvEnv) (a : CsvArgs) (base : FPath) (m : Metric) (fs : Fs) : Fs × Except Panic Unit :=
  if a.noCompression then (fs, .ok ())
  else
    match compressData env.E env.p m.wbro.getSamples a.comp with
    | .error e => (fs, .error e)
    | .ok bs => (fs.write (base.withExt "bro") bs, .ok ())

/-- The compress branch of `process_args` (main.rs:181-210), with `process_csv` (main.rs:136-139). -/
def csvRunCompress (env : CsvEnv) (a : CsvArgs) (fs : Fs) (input : FPath) : Fs × Except Panic Unit :=
  match fs input with
  | none => (fs, .error .unwrap)
  | some content =>
    match env.readCsv content with
    | none => (fs, .error .unwrap)
    | some ss =>
      match Metric.fromSamples env.p env.valid ss with
      | .error e => (fs, .error e)
      | .ok (.error _) => (fs, .error .unwrap)
      | .ok (.ok m) =>
        match csvFlushWavbrro a (a.base input) m fs with
        | (fs1, .error e) => (fs1, .error e)
        | (fs1, .ok ()) => csvFlushBro env a (a.base input) m (csvFlushVsri a (a.base input) m fs1)

/-- `process_args` (main.rs:141-211): the file system afterwards and whether the run panicked. -/
def csvRun (env : CsvEnv) (a : CsvArgs) (fs : Fs) (input : FPath) : Fs × Except Panic Unit :=
  if a.uncompress then csvRunUncompress env a fs input else csvRunCompress env a fs input

end Atsc
