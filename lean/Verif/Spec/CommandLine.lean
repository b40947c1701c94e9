import Verif.Model.CommandLine
/- Specification for C104: the manuals of the three programs (names, values and defaults of their options), and the ways a command line may be written.
Nothing here refers to how the programs parse; the key types only name the options. -/
namespace Atsc

/-! ### Manuals -/

/-- One line of a manual. -/
structure Entry (K : Type) where
  key : K
  /-- `--name` -/
  long : Option (List Char) := none
  /-- `-n` -/
  short : Option Char := none
  /-- for an option that takes a value: the acceptable ones; `none` for a flag -/
  value : Option (List Char → Prop) := none
  /-- does it end the program at once? -/
  stop : Option Stop := none

/-- A manual: one positional argument and a list of options. -/
structure Manual (K : Type) where
  input : K
  entries : List (Entry K)

/-- `v` is a decimal notation of the number `n`: at least one digit, a plus sign allowed (and a minus sign for zero). -/
def ReadsNumber (v : List Char) (n : Nat) : Prop :=
  ∃ ds : List Char, ds ≠ [] ∧ (∀ c ∈ ds, c.isDigit = true) ∧ Nat.ofDigitChars 10 ds 0 = n ∧ (v = ds ∨ v = '+' :: ds ∨ v = '-' :: ds ∧ n = 0)

/-- The names of the compressors. -/
def compressorNames : List (List Char × CompressorType) :=
  [("auto".toList, .auto), ("noop".toList, .noop), ("fft".toList, .fft), ("constant".toList, .constant), ("polynomial".toList, .polynomial),
    ("idw".toList, .idw), ("rle".toList, .rle)]

/-- atsc. -/
def atscManual : Manual AtscKey where
  input := .input
  entries := [
    { key := .compressor, long := some "compressor".toList, value := some fun v => ∃ c, (v, c) ∈ compressorNames },
    { key := .error, long := some "error".toList, short := some 'e', value := some fun v => ∃ n ≤ 50, ReadsNumber v n },
    { key := .uncompress, short := some 'u' },
    { key := .level, long := some "compression-selection-sample-level".toList, short := some 'c', value := some fun v => ∃ n ≤ 6, ReadsNumber v n },
    { key := .verbose, long := some "verbose".toList },
    { key := .csv, long := some "csv".toList },
    { key := .noHeader, long := some "no-header".toList },
    { key := .fields, long := some "fields".toList, value := some fun _ => True },
    { key := .help, long := some "help".toList, short := some 'h', stop := some .help },
    { key := .version, long := some "version".toList, short := some 'V', stop := some .version }]

/-- csv-compressor. -/
def csvManual : Manual CsvKey where
  input := .input
  entries := [
    { key := .output, long := some "output".toList, short := some 'o', value := some fun v => v ≠ [] },
    { key := .uncompress, short := some 'u' },
    { key := .noCompression, long := some "no-compression".toList },
    { key := .outputVsri, long := some "output-vsri".toList },
    { key := .outputWavbrro, long := some "output-wavbrro".toList },
    { key := .outputCsv, long := some "output-csv".toList },
    { key := .compressor, long := some "compressor".toList, value := some fun v => ∃ c, (v, c) ∈ compressorNames ∧ c ≠ .rle },
    { key := .error, long := some "error".toList, short := some 'e', value := some fun v => ∃ n ≤ 50, ReadsNumber v n },
    { key := .level, long := some "compression-selection-sample-level".toList, short := some 'c', value := some fun v => ∃ n ≤ 6, ReadsNumber v n },
    { key := .help, long := some "help".toList, short := some 'h', stop := some .help },
    { key := .version, long := some "version".toList, short := some 'V', stop := some .version }]

/-- wav2wbro. -/
def wavManual : Manual WavKey where
  input := .input
  entries := [
    { key := .validate, long := some "validate".toList },
    { key := .help, long := some "help".toList, short := some 'h', stop := some .help },
    { key := .version, long := some "version".toList, short := some 'V', stop := some .version }]

/-! ### Ways to write a command line -/

variable {K : Type}

/-- The name belongs to the option. -/
def Manual.Long (m : Manual K) (name : List Char) (e : Entry K) : Prop := e ∈ m.entries ∧ e.long = some name
@[inherit_doc Manual.Long] def Manual.Short (m : Manual K) (n : Char) (e : Entry K) : Prop := e ∈ m.entries ∧ e.short = some n

/-- A word that is a value and not an option. -/
def Plain (v : List Char) : Prop := v = ['-'] ∨ v.head? ≠ some '-'

/-- What a command line says: options (and the positional argument) in order, with their values, empty for flags. -/
abbrev Said (K : Type) := List (K × List Char)

/-- A bunch of short flags: their letters and what they say. -/
inductive Bunch (m : Manual K) : List Char → Said K → Prop
  | nil : Bunch m [] []
  | cons {n : Char} {e : Entry K} {ns : List Char} {s : Said K} : m.Short n e → e.value = none → Bunch m ns s → Bunch m (n :: ns) ((e.key, []) :: s)

/-- `Line m ts s`: the words `ts` are a way to say `s`. -/
inductive Line (m : Manual K) : List Tok → Said K → Prop
  | nil : Line m [] []
  /-- `value` -/
  | word {v : List Char} {ts : List Tok} {s : Said K} : Plain v → Line m ts s → Line m (v :: ts) ((m.input, v) :: s)
  /-- `--flag` -/
  | flag {name : List Char} {e : Entry K} {ts : List Tok} {s : Said K} : m.Long name e → e.value = none → Line m ts s →
      Line m ((['-', '-'] ++ name) :: ts) ((e.key, []) :: s)
  /-- `--name=value` -/
  | longEq {name v : List Char} {e : Entry K} {ts : List Tok} {s : Said K} : m.Long name e → e.value.isSome → Line m ts s →
      Line m ((['-', '-'] ++ name ++ '=' :: v) :: ts) ((e.key, v) :: s)
  /-- `--name value` -/
  | longSep {name v : List Char} {e : Entry K} {ts : List Tok} {s : Said K} : m.Long name e → e.value.isSome → Plain v → Line m ts s →
      Line m ((['-', '-'] ++ name) :: v :: ts) ((e.key, v) :: s)
  /-- `-abc` -/
  | bunch {ns : List Char} {b : Said K} {ts : List Tok} {s : Said K} : ns ≠ [] → Bunch m ns b → Line m ts s → Line m (('-' :: ns) :: ts) (b ++ s)
  /-- `-n=value` or `-abn=value` -/
  | shortEq {ns v : List Char} {b : Said K} {n : Char} {e : Entry K} {ts : List Tok} {s : Said K} : Bunch m ns b → m.Short n e → e.value.isSome →
      Line m ts s → Line m (('-' :: (ns ++ n :: '=' :: v)) :: ts) (b ++ (e.key, v) :: s)
  /-- `-nvalue` or `-abnvalue` -/
  | shortJoined {ns v : List Char} {b : Said K} {n : Char} {e : Entry K} {ts : List Tok} {s : Said K} : Bunch m ns b → m.Short n e → e.value.isSome →
      v ≠ [] → v.head? ≠ some '=' → Line m ts s → Line m (('-' :: (ns ++ n :: v)) :: ts) (b ++ (e.key, v) :: s)
  /-- `-n value` or `-abn value` -/
  | shortSep {ns v : List Char} {b : Said K} {n : Char} {e : Entry K} {ts : List Tok} {s : Said K} : Bunch m ns b → m.Short n e → e.value.isSome →
      Plain v → Line m ts s → Line m (('-' :: (ns ++ [n])) :: v :: ts) (b ++ (e.key, v) :: s)
  /-- `-- value ...`: after two dashes everything is a value -/
  | dashes (vs : List Tok) : Line m (['-', '-'] :: vs) (vs.map fun v => (m.input, v))

/-- Is this thing said acceptable: a non-empty positional argument, or an option with an acceptable value? -/
def Manual.Accepts (m : Manual K) (x : K × List Char) : Prop :=
  x.1 = m.input ∧ x.2 ≠ [] ∨ ∃ e ∈ m.entries, e.key = x.1 ∧ ∀ P, e.value = some P → P x.2

/-- Does this thing said end the program? -/
def Manual.Stops (m : Manual K) (x : K × List Char) (st : Stop) : Prop := ∃ e ∈ m.entries, e.key = x.1 ∧ e.stop = some st

/-- What is said is in order: nothing ends the program, nothing is repeated, everything is acceptable. -/
def Manual.InOrder (m : Manual K) (s : Said K) : Prop :=
  (∀ x ∈ s, m.Accepts x ∧ ∀ st, ¬ m.Stops x st) ∧ (s.map Prod.fst).Nodup

/-- The word `t` asks for the option `e`: its long name, or its letter in a bunch of letters. -/
def Asks (e : Entry K) (t : Tok) : Prop :=
  (∃ name, e.long = some name ∧ t = ['-', '-'] ++ name) ∨ ∃ ns n, e.short = some n ∧ t = '-' :: ns ∧ ns.head? ≠ some '-' ∧ n ∈ ns

/-! ### What it means -/

/-- The value of an option: the one said, read by `R`, or the default. -/
def Chosen {α : Type} (s : Said K) (k : K) (R : List Char → α → Prop) (default x : α) : Prop :=
  (∃ v, (k, v) ∈ s ∧ R v x) ∨ (∀ v, (k, v) ∉ s) ∧ x = default

/-- A flag is set exactly if it is said. -/
def Flagged (s : Said K) (k : K) (b : Bool) : Prop := b = true ↔ ∃ v, (k, v) ∈ s

/-- What an atsc command line asks for. -/
structure AsksFor (s : Said AtscKey) (a : AtscArgs) : Prop where
  input : (.input, a.input) ∈ s
  compressor : Chosen s .compressor (fun v c => (v, c) ∈ compressorNames) .auto a.run.comp.compressor
  error : Chosen s .error ReadsNumber 3 a.run.comp.error
  level : Chosen s .level ReadsNumber 0 a.run.comp.level
  fields : Chosen s .fields (fun v x => v = x) "time,value".toList a.run.fields
  uncompress : Flagged s .uncompress a.run.uncompress
  csv : Flagged s .csv a.run.csv
  noHeader : Flagged s .noHeader a.run.noHeader
  verbose : Flagged s .verbose a.verbose

/-- What a csv-compressor command line asks for. -/
structure CsvAsksFor (path : List Char → FPath) (s : Said CsvKey) (i : List Char) (a : CsvArgs) : Prop where
  input : (.input, i) ∈ s
  compressor : Chosen s .compressor (fun v c => (v, c) ∈ compressorNames) .auto a.comp.compressor
  error : Chosen s .error ReadsNumber 5 a.comp.error
  level : Chosen s .level ReadsNumber 0 a.comp.level
  output : Chosen s .output (fun v o => o = some (path v)) none a.output
  uncompress : Flagged s .uncompress a.uncompress
  noCompression : Flagged s .noCompression a.noCompression
  outputVsri : Flagged s .outputVsri a.outputVsri
  outputWavbrro : Flagged s .outputWavbrro a.outputWavbrro

end Atsc
