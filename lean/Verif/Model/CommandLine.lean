import Verif.Model.Main
import Verif.Model.CsvCompressor
import Verif.Model.Wav
/- Model of the command lines of the three programs: the `#[derive(Parser)]` structures of /repo/atsc/src/main.rs:174-232,
/repo/csv-compressor/src/main.rs:32-92 and /repo/tools/src/bin/wav2wbro.rs:73-82.

The attributes (names, defaults, ranges) are in /repo; what clap 4.5 (Cargo.lock) makes of them is external and modelled here by `Cmd.run`:
`--name value`, `--name=value`, `-n value`, `-nvalue`, `-n=value`, clusters of short flags, `--`, no repetition of an option, no abbreviation of names,
no option value that starts with `-` unless attached.  Simplifications: arguments are valid UTF-8 and given without the program name; the text of
help and error messages is left out (help and version end with status 0, a usage error with status 2). -/
namespace Atsc

/-- One argument as the program gets it. -/
abbrev Tok := List Char

/-- Why a program ends before its `main` does anything: `--help`, `--version` or a usage error. -/
inductive Stop where
  | help
  | version
  | usage
  deriving DecidableEq, Repr

/-- Exit status of clap: 0 after help and version, 2 after a usage error. -/
def Stop.status : Stop → Nat
  | .help => 0
  | .version => 0
  | .usage => 2

/-- A command line definition over the argument names `K`. -/
structure Cmd (K : Type) where
  /-- the argument with this long name -/
  long : List Char → Option K
  /-- the argument with this short name -/
  short : Char → Option K
  /-- does it take a value? -/
  takes : K → Bool
  /-- does its value parser accept this text? -/
  valid : K → List Char → Bool
  /-- the positional argument -/
  input : K
  /-- help and version -/
  stop : K → Option Stop

/-- The arguments met so far, with their values (empty for flags). -/
abbrev Seen (K : Type) := List (K × List Char)

/-- Split at the first `=` (clap_lex `to_long`). -/
def splitEq : List Char → List Char × Option (List Char)
  | [] => ([], none)
  | c :: r => if c = '=' then ([], some r) else ((c :: (splitEq r).1), (splitEq r).2)

variable {K : Type} [DecidableEq K]

/-- clap's `react`: help and version end the program, a repeated argument and a value that does not parse are usage errors. -/
def Cmd.react (c : Cmd K) (seen : Seen K) (k : K) (v : List Char) : Except Stop (Seen K) :=
  match c.stop k with
  | some s => .error s
  | none =>
    if seen.any fun x => decide (x.1 = k) then .error .usage
    else if c.valid k v then .ok (seen ++ [(k, v)])
    else .error .usage

/-- What follows an argument: nothing, or an option that still needs its value. -/
inductive After (K : Type) where
  | done (seen : Seen K)
  | pending (seen : Seen K) (k : K)

/-- clap's `parse_long_arg`: `body` is the argument without its two dashes. -/
def Cmd.longArg (c : Cmd K) (seen : Seen K) (body : List Char) : Except Stop (After K) :=
  match c.long (splitEq body).1 with
  | none => .error .usage
  | some k =>
    if c.takes k then
      match (splitEq body).2 with
      | some v => (c.react seen k v).map .done
      | none => .ok (.pending seen k)
    else
      match (splitEq body).2 with
      | some _ => .error .usage
      | none => (c.react seen k []).map .done

/-- The value attached to a short option: `-e5` and `-e=5`. -/
def attached : List Char → List Char
  | '=' :: v => v
  | v => v

/-- clap's `parse_short_arg`: a cluster of short names; the first one that takes a value gets the rest. -/
def Cmd.shorts (c : Cmd K) (seen : Seen K) : List Char → Except Stop (After K)
  | [] => .ok (.done seen)
  | ch :: rest =>
    match c.short ch with
    | none => .error .usage
    | some k =>
      if c.takes k then
        if rest = [] then .ok (.pending seen k)
        else (c.react seen k (attached rest)).map .done
      else
        match c.react seen k [] with
        | .error s => .error s
        | .ok seen' => c.shorts seen' rest

/-- What a word looks like (clap_lex): `--`, `--body`, `-ccs`, or a value (`-` alone is one). -/
inductive Look where
  | escape
  | long (body : List Char)
  | short (c : Char) (cs : List Char)
  | value (v : List Char)

/-- clap_lex `is_escape`, `to_long`, `to_short`. -/
def look : Tok → Look
  | ['-', '-'] => .escape
  | '-' :: '-' :: body => .long body
  | '-' :: c :: cs => .short c cs
  | v => .value v

/-- clap's `get_matches_with`: `pend` is the option that waits for its value, `trailing` is set after `--`.
An option that waits for its value and meets an option, `--` or the end is a usage error. -/
def Cmd.run (c : Cmd K) : Option K → Bool → Seen K → List Tok → Except Stop (Seen K)
  | none, _, seen, [] => .ok seen
  | some _, _, _, [] => .error .usage
  | pend, trailing, seen, t :: ts =>
    match (if trailing then .value t else look t), pend with
    | .value v, _ =>
      match c.react seen (pend.getD c.input) v with
      | .error s => .error s
      | .ok seen' => c.run none trailing seen' ts
    | _, some _ => .error .usage
    | .escape, none => c.run none true seen ts
    | .long body, none =>
      match c.longArg seen body with
      | .error s => .error s
      | .ok (.done seen') => c.run none trailing seen' ts
      | .ok (.pending seen' k) => c.run (some k) trailing seen' ts
    | .short ch cs, none =>
      match c.shorts seen (ch :: cs) with
      | .error s => .error s
      | .ok (.done seen') => c.run none trailing seen' ts
      | .ok (.pending seen' k) => c.run (some k) trailing seen' ts

/-- The value given for an argument. -/
def Seen.value (seen : Seen K) (k : K) : Option (List Char) := (seen.find? fun x => decide (x.1 = k)).map (·.2)
/-- Was the argument given? -/
def Seen.has (seen : Seen K) (k : K) : Bool := (seen.value k).isSome

/-! ### Value parsers -/

/-- A digit. -/
def charDigit (c : Char) : Option Nat := if '0' ≤ c ∧ c ≤ '9' then some (c.toNat - 48) else none

/-- Decimal digits, at least one, without a sign. -/
def parseDigits : Nat → List Char → Option Nat
  | acc, [] => some acc
  | acc, c :: r =>
    match charDigit c with
    | none => none
    | some d => parseDigits (10 * acc + d) r

/-- `clap::value_parser!(u8).range(0..top)` (atsc main.rs:187,199; csv-compressor main.rs:71,79): `str::parse::<i64>` (an optional sign, then digits),
then the range.  A value too large for i64 is out of range here. -/
def parseRange (top : Nat) (v : List Char) : Option Nat :=
  let n : Option Nat :=
    match v with
    | '+' :: c :: r => parseDigits 0 (c :: r)
    | '-' :: c :: r => if parseDigits 0 (c :: r) = some 0 then some 0 else none
    | c :: r => parseDigits 0 (c :: r)
    | [] => none
  match n with
  | some n => if n < top then some n else none
  | none => none

/-- `#[derive(clap::ValueEnum)] enum CompressorType` (atsc main.rs:222-232): the variant names in lower case. -/
def parseCompressor (v : List Char) : Option CompressorType :=
  if v = "auto".toList then some .auto
  else if v = "noop".toList then some .noop
  else if v = "fft".toList then some .fft
  else if v = "constant".toList then some .constant
  else if v = "polynomial".toList then some .polynomial
  else if v = "idw".toList then some .idw
  else if v = "rle".toList then some .rle
  else none

/-- The same enumeration of csv-compressor (main.rs:83-92) has no RLE. -/
def parseCsvCompressor (v : List Char) : Option CompressorType :=
  if parseCompressor v = some .rle then none else parseCompressor v

/-! ### atsc -/

/-- The arguments of atsc (main.rs:176-220) and clap's own. -/
inductive AtscKey where
  | input | compressor | error | uncompress | level | verbose | csv | noHeader | fields | help | version
  deriving DecidableEq, Repr

/-- Long names (main.rs:176-220): field names with dashes where the attribute says `long`; `uncompress` has none. -/
def atscLong (s : List Char) : Option AtscKey :=
  if s = "compressor".toList then some .compressor
  else if s = "error".toList then some .error
  else if s = "compression-selection-sample-level".toList then some .level
  else if s = "verbose".toList then some .verbose
  else if s = "csv".toList then some .csv
  else if s = "no-header".toList then some .noHeader
  else if s = "fields".toList then some .fields
  else if s = "help".toList then some .help
  else if s = "version".toList then some .version
  else none

/-- Short names (main.rs:176-220): the first letter where the attribute says `short`. -/
def atscShort (c : Char) : Option AtscKey :=
  if c = 'e' then some .error
  else if c = 'u' then some .uncompress
  else if c = 'c' then some .level
  else if c = 'h' then some .help
  else if c = 'V' then some .version
  else none

/-- Which arguments take a value (main.rs:176-220: the types that are not `bool`). -/
def atscTakes : AtscKey → Bool
  | .compressor | .error | .level | .fields | .input => true
  | _ => false

/-- The value parsers (main.rs:176-220); a path must not be empty (clap's `PathBufValueParser`). -/
def atscValid : AtscKey → List Char → Bool
  | .input, v => decide (v ≠ [])
  | .compressor, v => (parseCompressor v).isSome
  | .error, v => (parseRange 51 v).isSome
  | .level, v => (parseRange 7 v).isSome
  | _, _ => true

/-- The command line of atsc. -/
def atscCmd : Cmd AtscKey where
  long := atscLong
  short := atscShort
  takes := atscTakes
  valid := atscValid
  input := .input
  stop := fun k => match k with | .help => some .help | .version => some .version | _ => none

/-- `struct Args` (main.rs:176-220) after parsing. -/
structure AtscArgs where
  input : List Char
  run : RunArgs
  verbose : Bool

/-- The fields from the matched arguments, with the defaults of main.rs:180-219; `input` is required. -/
def atscBuild (seen : Seen AtscKey) : Except Stop AtscArgs :=
  match seen.value .input with
  | none => .error .usage
  | some path => .ok
    { input := path
      run :=
        { comp :=
            { compressor := ((seen.value .compressor).bind parseCompressor).getD .auto
              error := ((seen.value .error).bind (parseRange 51)).getD 3
              level := ((seen.value .level).bind (parseRange 7)).getD 0 }
          uncompress := seen.has .uncompress
          csv := seen.has .csv
          noHeader := seen.has .noHeader
          fields := (seen.value .fields).getD "time,value".toList }
      verbose := seen.has .verbose }

/-- `Args::parse()` (main.rs:236). -/
def atscParse (ts : List Tok) : Except Stop AtscArgs :=
  match atscCmd.run none false [] ts with
  | .error s => .error s
  | .ok seen => atscBuild seen

/-- `main` of atsc (main.rs:234-243) from the arguments: the files afterwards and the exit status.  `stat` says what the path names
(`std::fs::metadata` and `read_dir`). -/
def atscMain (env : Env) (stat : List Char → Input) (fs : Fs) (ts : List Tok) : Fs × Nat :=
  match atscParse ts with
  | .error s => (fs, s.status)
  | .ok a => runMain env a.run fs (stat a.input)

/-! ### csv-compressor -/

/-- The arguments of csv-compressor (main.rs:36-81) and clap's own. -/
inductive CsvKey where
  | input | output | uncompress | noCompression | outputVsri | outputWavbrro | outputCsv | compressor | error | level | help | version
  deriving DecidableEq, Repr

/-- Long names (csv-compressor main.rs:36-81). -/
def csvLong (s : List Char) : Option CsvKey :=
  if s = "output".toList then some .output
  else if s = "no-compression".toList then some .noCompression
  else if s = "output-vsri".toList then some .outputVsri
  else if s = "output-wavbrro".toList then some .outputWavbrro
  else if s = "output-csv".toList then some .outputCsv
  else if s = "compressor".toList then some .compressor
  else if s = "error".toList then some .error
  else if s = "compression-selection-sample-level".toList then some .level
  else if s = "help".toList then some .help
  else if s = "version".toList then some .version
  else none

/-- Short names (csv-compressor main.rs:36-81). -/
def csvShort (c : Char) : Option CsvKey :=
  if c = 'o' then some .output
  else if c = 'u' then some .uncompress
  else if c = 'e' then some .error
  else if c = 'c' then some .level
  else if c = 'h' then some .help
  else if c = 'V' then some .version
  else none

/-- Which arguments take a value (csv-compressor main.rs:36-81). -/
def csvTakes : CsvKey → Bool
  | .input | .output | .compressor | .error | .level => true
  | _ => false

/-- The value parsers (csv-compressor main.rs:36-81). -/
def csvValid : CsvKey → List Char → Bool
  | .input, v => decide (v ≠ [])
  | .output, v => decide (v ≠ [])
  | .compressor, v => (parseCsvCompressor v).isSome
  | .error, v => (parseRange 51 v).isSome
  | .level, v => (parseRange 7 v).isSome
  | _, _ => true

/-- The command line of csv-compressor. -/
def csvCmd : Cmd CsvKey where
  long := csvLong
  short := csvShort
  takes := csvTakes
  valid := csvValid
  input := .input
  stop := fun k => match k with | .help => some .help | .version => some .version | _ => none

/-- The fields from the matched arguments (csv-compressor main.rs:36-81): the input and the arguments of `csvRun`; `path` is `PathBuf::from`. -/
def csvBuild (path : List Char → FPath) (seen : Seen CsvKey) : Except Stop (List Char × CsvArgs) :=
  match seen.value .input with
  | none => .error .usage
  | some i => .ok
    (i,
      { comp :=
          { compressor := ((seen.value .compressor).bind parseCsvCompressor).getD .auto
            error := ((seen.value .error).bind (parseRange 51)).getD 5
            level := ((seen.value .level).bind (parseRange 7)).getD 0 }
        output := (seen.value .output).map path
        uncompress := seen.has .uncompress
        noCompression := seen.has .noCompression
        outputVsri := seen.has .outputVsri
        outputWavbrro := seen.has .outputWavbrro })

/-- `Args::parse()` (csv-compressor main.rs:215). -/
def csvParse (path : List Char → FPath) (ts : List Tok) : Except Stop (List Char × CsvArgs) :=
  match csvCmd.run none false [] ts with
  | .error s => .error s
  | .ok seen => csvBuild path seen

/-- `main` of csv-compressor (main.rs:213-234): the files afterwards and the exit status (101 after a panic); an input that is not a regular file
panics. -/
def csvMain (env : CsvEnv) (path : List Char → FPath) (isFile : List Char → Bool) (fs : Fs) (ts : List Tok) : Fs × Nat :=
  match csvParse path ts with
  | .error s => (fs, s.status)
  | .ok (i, a) =>
    if isFile i then
      match csvRun env a fs (path i) with
      | (fs', .ok ()) => (fs', 0)
      | (fs', .error _) => (fs', 101)
    else (fs, 101)

/-! ### wav2wbro -/

/-- The arguments of wav2wbro (wav2wbro.rs:75-82) and clap's own. -/
inductive WavKey where
  | input | validate | help | version
  deriving DecidableEq, Repr

/-- The command line of wav2wbro (wav2wbro.rs:73-82). -/
def wavCmd : Cmd WavKey where
  long := fun s =>
    if s = "validate".toList then some .validate
    else if s = "help".toList then some .help
    else if s = "version".toList then some .version
    else none
  short := fun c => if c = 'h' then some .help else if c = 'V' then some .version else none
  takes := fun k => decide (k = .input)
  valid := fun k v => decide (k ≠ .input ∨ v ≠ [])
  input := .input
  stop := fun k => match k with | .help => some .help | .version => some .version | _ => none

/-- `main` of wav2wbro (wav2wbro.rs:84-109) from the arguments: the files afterwards and the exit status. -/
def wav2wbro (hound : Bytes → Option (Nat × List (Option Int))) (p : Profile) (fs : Wav.Files) (ts : List Tok) : Wav.Files × Nat :=
  match wavCmd.run none false [] ts with
  | .error s => (fs, s.status)
  | .ok seen =>
    match seen.value .input with
    | none => (fs, Stop.usage.status)
    | some name =>
      match Wav.wavMain hound p fs name (seen.has .validate) with
      | (fs', .ok ()) => (fs', 0)
      | (fs', .error _) => (fs', 101)

end Atsc
