import Verif.Model.Main
import Verif.Model.NumText
import Verif.Model.CommandLine
/- What `--verbose` prints: the three `println!` of /repo/atsc/src/main.rs (78-80, 102-104, 115-117) and the `Debug` format of `Vec<f64>` they use, which is not in the
repository (`core::fmt::float`, `core::num::flt2dec` and `core::fmt::builders` of Rust 1.81, written down function by function).  Not modelled: the text of the log, which goes
to standard error. -/
namespace Atsc

/-! ### Numbers -/

/-- Does `flt2dec::strategy::dragon::format_shortest` round up when both neighbours read as `x`: yes from the middle on. -/
def debugUp (a : Nat) (k : Int) : Bool :=
  let num := if 0 ≤ k then a else a * 10 ^ (-k).toNat
  let den := if 0 ≤ k then 2 ^ FP.qexp 52 11 * 10 ^ k.toNat else 2 ^ FP.qexp 52 11
  decide ((2 * (num / den) + 1) * den ≤ 2 * num)

/-- The multiples of `10^k` next to `x`, the preferred one first. -/
def debugNear (a : Nat) (k : Int) : List Nat := if debugUp a k then [decFloor a k + 1, decFloor a k] else [decFloor a k, decFloor a k + 1]

/-- The preferred multiple of `10^k` that reads as `x`, if there is one. -/
def debugAt (x : F64) (k : Int) : Option (Nat × Int) := ((debugNear x.absVal k).find? fun m => decRound x.sign m k = x).map fun m => (m, k)

/-- `flt2dec::strategy::grisu::format_shortest` and its fallback `dragon::format_shortest`: digits are produced until one of the two neighbours reads as `x`, that is up to the
largest power of ten (from 308 down to -324) with a multiple that does. -/
def debugDigits (x : F64) : Nat × Int := ((List.range 633).findSome? fun (i : Nat) => debugAt x (308 - (i : Int))).getD (0, 0)

/-- `flt2dec::digits_to_dec_str` with at least one decimal, for the digits `ds` and the exponent `k` of the last one. -/
def decStr (ds : List Char) (k : Int) : List Char :=
  let kk : Int := ds.length + k
  if kk ≤ 0 then '0' :: '.' :: (List.replicate (-kk).toNat '0' ++ ds)
  else if kk < ds.length then ds.take kk.toNat ++ '.' :: ds.drop kk.toNat
  else ds ++ List.replicate k.toNat '0' ++ ['.', '0']

/-- `flt2dec::digits_to_exp_str`. -/
def expStr (ds : List Char) (k : Int) : List Char :=
  ds.take 1 ++ ((if 1 < ds.length then '.' :: ds.drop 1 else []) ++ 'e' :: showI32 ((ds.length : Int) + k - 1))

/-- `1e16`. -/
def debugHigh : F64 := decRound false 1 16
/-- `1e-4`. -/
def debugLow : F64 := decRound false 1 (-4)

/-- `impl Debug for f64` (`float_to_general_debug`): from 1e16 on and, except for zero, below 1e-4 with an exponent. -/
def debugText (x : F64) : List Char :=
  if x.isNaN then "NaN".toList
  else (if x.sign then ['-'] else []) ++
    (if x.isInf then "inf".toList
    else if x.absVal = 0 then "0.0".toList
    else if debugHigh.le x.abs ∨ x.abs.lt debugLow then expStr (Nat.toDigits 10 (debugDigits x).1) (debugDigits x).2
    else decStr (Nat.toDigits 10 (debugDigits x).1) (debugDigits x).2)

/-- The entries of a list but the first, each after a comma and a space (`DebugSet::entry`). -/
def debugRest : List F64 → List Char
  | [] => []
  | x :: xs => ',' :: ' ' :: (debugText x ++ debugRest xs)

/-- `impl Debug for Vec<f64>` (`DebugList`). -/
def debugList : List F64 → List Char
  | [] => ['[', ']']
  | x :: xs => '[' :: (debugText x ++ (debugRest xs ++ [']']))

/-! ### The program -/

/-- `println!("{label}{:?}", d)` and what comes after it.  `stop` is what happens to standard output: `none` if all is well, `some n` if it takes no more than `n` characters, on
which `println!` panics. -/
def say (verbose : Bool) (stop : Option Nat) (label : String) (d : List F64) (fs : Fs) (next : Fs × Ended) : List Char × Fs × Ended :=
  let line := label.toList ++ debugList d ++ ['\n']
  if verbose then
    match stop with
    | none => (line, next)
    | some n => if n < line.length then (line.take n, fs, .panicked) else (line, next)
  else ([], next)

/-- `compress_data` and `std::fs::write` at the end of `process_single_file` (main.rs:106-111, 119-124). -/
def compressAndWrite (env : Env) (a : RunArgs) (fs : Fs) (path : FPath) (d : List F64) : Fs × Ended :=
  match compressData env.E env.p d a.comp with
  | .error _ => (fs, .panicked)
  | .ok bs => (fs.write (path.withExt "bro") bs, .ok)

/-- `process_single_file` (main.rs:71-127): what is printed, the files afterwards and how it ends. -/
def talkSingle (env : Env) (a : RunArgs) (verbose : Bool) (stop : Option Nat) (fs : Fs) (path : FPath) : List Char × Fs × Ended :=
  match fs path with
  | none => ([], fs, .err)
  | some content =>
    if a.uncompress then
      match broRead content with
      | .eof => ([], fs, .err)
      | .notBro => ([], fs, .ok)
      | .bytes bs =>
        match decompressData env.E bs with
        | .error _ => ([], fs, .panicked)
        | .ok d => say verbose stop "Output=" d fs
          (match WavBrro.toFileWithData d with
          | .error _ => (fs, .panicked)
          | .ok out => (fs.write (path.withExt "wbro") out, .ok))
    else if a.csv then
      match readCsv env a content with
      | .error _ => ([], fs, .panicked)
      | .ok (.error _) => ([], fs, .err)
      | .ok (.ok d) => say verbose stop "Input=" d fs (compressAndWrite env a fs path d)
    else
      match WavBrro.fromFile env.addr content with
      | .error _ => ([], fs, .panicked)
      | .ok .ioError => ([], fs, .err)
      | .ok .formatError => ([], fs, .err)
      | .ok (.samples d) => say verbose stop "Input=" d fs (compressAndWrite env a fs path d)

/-- `process_directory` (main.rs:50-68); `S k` is what happens to standard output during the `k`-th attempt at a file. -/
def talkDir (env : Env) (a : RunArgs) (verbose : Bool) (S : Nat → Option Nat) : Nat → Fs → List (FPath × Bool) → List Char × Fs × Ended
  | _, fs, [] => ([], fs, .ok)
  | k, fs, (path, isFile) :: rest =>
    if isFile then
      match talkSingle env a verbose (S k) fs path with
      | (t, fs1, .ok) => ((t ++ (talkDir env a verbose S (k + 1) fs1 rest).1), (talkDir env a verbose S (k + 1) fs1 rest).2)
      | (t, fs1, .panicked) => (t, fs1, .panicked)
      | (t, fs1, .err) =>
        match talkSingle env a verbose (S (k + 1)) fs1 path with
        | (u, fs2, .ok) => (t ++ u ++ (talkDir env a verbose S (k + 2) fs2 rest).1, (talkDir env a verbose S (k + 2) fs2 rest).2)
        | (u, fs2, e) => (t ++ u, fs2, e)
    else talkDir env a verbose S k fs rest

/-- `process_args` (main.rs:29-48). -/
def talkArgs (env : Env) (a : RunArgs) (verbose : Bool) (S : Nat → Option Nat) (fs : Fs) : Input → List Char × Fs × Ended
  | .missing => ([], fs, .err)
  | .file path => talkSingle env a verbose (S 0) fs path
  | .dir entries => talkDir env a verbose S 0 fs entries
  | .other => ([], fs, .err)

/-- `main` (main.rs:234-243): what is printed on standard output, the files afterwards and the exit status. -/
def talkMain (env : Env) (a : RunArgs) (verbose : Bool) (S : Nat → Option Nat) (fs : Fs) (i : Input) : List Char × Fs × Nat :=
  ((talkArgs env a verbose S fs i).1, (talkArgs env a verbose S fs i).2.1, (talkArgs env a verbose S fs i).2.2.status)

/-- `main` of atsc from the arguments; `none` if clap stops the program (and prints a text of its own). -/
def atscTalk (env : Env) (stat : List Char → Input) (S : Nat → Option Nat) (fs : Fs) (ts : List Tok) : Option (List Char × Fs × Nat) :=
  match atscParse ts with
  | .error _ => none
  | .ok a => some (talkMain env a.run a.verbose S fs (stat a.input))

end Atsc
