import Verif.Model.Io
import Verif.Model.CommandLine
/- Model of /repo/tools/src/bin/wav2wbro.rs when file operations fail: the input cannot be opened or read, once for its header and once more by the `hound` crate,
the output cannot be created, and the two writes fail or write less than asked.  Not modelled: a failing `close`, and content that changes while it is read. -/
namespace Atsc.Wav
open Atsc

/-- What the operating system does during a run of wav2wbro. -/
structure WavFaults where
  /-- the input can be opened and its first 12 bytes can be read (wav2wbro.rs:27-29) -/
  header : Bool
  /-- `hound::WavReader::open` can open the file and read the description of the format (wav2wbro.rs:36) -/
  opens : Bool
  /-- reading breaks off after so many samples: the iterator returns an `Err` (wav2wbro.rs:50-51) -/
  samples : Option Nat
  /-- the output: `noCreate`, `head` and `body` are used -/
  out : Fault
  deriving DecidableEq, Repr

/-- Nothing fails. -/
def WavFaults.calm : WavFaults := { header := true, opens := true, samples := none, out := .calm }

/-- What the iterator `reader.samples::<i16>()` returns when reading breaks off after `k` samples. -/
def brokenOff (k : Option Nat) (ss : List (Option Int)) : List (Option Int) :=
  match k with
  | none => ss
  | some n => if n < ss.length then ss.take n ++ [none] else ss

/-- `read_metrics_from_wav` (wav2wbro.rs:35-59): a file that cannot be opened gives no values, a sample that cannot be read panics. -/
def readWavIo (hound : Bytes → Option (Nat × List (Option Int))) (f : WavFaults) (content : Bytes) : Except Panic (List F64) :=
  if f.opens then
    match hound content with
    | none => .ok []
    | some (channels, samples) => readMetrics channels (brokenOff f.samples samples)
  else .ok []

/-- `write_wavbrro_file` (wavbrro/src/write.rs:21-27): what the file named `o` holds afterwards, `expect` panics on an error, the numbers of bytes
written are ignored. -/
def wavWrite (f : Fault) (fs : Files) (o : List Char) (content : Bytes) : Files × Ended :=
  let put (b : Bytes) : Files := fun q => if q = o then some b else fs q
  if f.noCreate then (fs, .panicked)
  else match f.head.count 12 with
    | none => (put [], .panicked)
    | some k1 =>
      match f.body.count content.length with
      | none => (put (WavBrro.header.take k1), .panicked)
      | some k2 => (put (WavBrro.writtenFile k1 k2 content), .ok)

/-- `main` (wav2wbro.rs:84-109) after argument parsing, with failing file operations. -/
def wavMainIo (hound : Bytes → Option (Nat × List (Option Int))) (p : Profile) (f : WavFaults) (fs : Files) (name : List Char) (validateFlag : Bool) :
    Files × Ended :=
  match fs name with
  | none => (fs, .panicked)
  | some content =>
    if f.header then
      match isWav content with
      | .error _ => (fs, .panicked)
      | .ok false => (fs, .panicked)
      | .ok true =>
        match readWavIo hound f content with
        | .error _ => (fs, .panicked)
        | .ok data =>
          match WavBrro.addAll p .new (data.filter fun x => !x.isNaN) with
          | .error _ => (fs, .panicked)
          | .ok w =>
            match stripWav name with
            | none => (fs, .panicked)
            | some stem =>
              match w.toBytes with
              | .error _ => (fs, .panicked)
              | .ok bs =>
                match wavWrite f.out fs (stem ++ "wbro".toList) bs with
                | (fs', .ok) => (fs', if validateFlag = true ∧ validate data w.getSamples ≠ .ok () then .panicked else .ok)
                | r => r
    else (fs, .panicked)

/-- `main` of wav2wbro from the arguments, with failing file operations: the files afterwards and the exit status. -/
def wav2wbroIo (hound : Bytes → Option (Nat × List (Option Int))) (p : Profile) (f : WavFaults) (fs : Files) (ts : List Tok) : Files × Nat :=
  match wavCmd.run none false [] ts with
  | .error s => (fs, s.status)
  | .ok seen =>
    match seen.value .input with
    | none => (fs, Stop.usage.status)
    | some name => ((wavMainIo hound p f fs name (seen.has .validate)).1, (wavMainIo hound p f fs name (seen.has .validate)).2.status)

end Atsc.Wav
