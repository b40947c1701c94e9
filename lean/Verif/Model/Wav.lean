import Verif.Model.Wavbrro
/- Model of /repo/tools/src/bin/wav2wbro.rs.  The `hound` crate (parsing of the WAV container) is external: `channels` is the number of channels it
reports and `samples` what its iterator returns (`none` is an `Err`).  `is_wav_file` only looks at the 12 header bytes. -/
namespace Atsc.Wav

/-- `sample as u16` for an `i16`. -/
def asU16 (s : Int) : Nat := (s % 65536).toNat

/-- `join_u16_into_f64` (wav2wbro.rs:61-72). -/
def joinU16 (b0 b1 b2 b3 : Nat) : F64 := FP.ofBits (b0 ||| (b1 <<< 16) ||| (b2 <<< 32) ||| (b3 <<< 48))

/-- `join_u16_into_f64(u64_holder)`. -/
def joinHolder (h : List Nat) : F64 := joinU16 (h.getD 0 0) (h.getD 1 0) (h.getD 2 0) (h.getD 3 0)

/-- The loop of `read_metrics_from_wav` (wav2wbro.rs:48-57): the holder has 4 entries, so a fifth channel panics. -/
def readLoop (channels : Nat) : List Nat → Nat → List F64 → List (Option Int) → Except Panic (List F64)
  | _, _, acc, [] => .ok acc
  | _, _, _, none :: _ => .error .unwrap
  | holder, cur, acc, some s :: rest =>
    if cur < holder.length then
      let holder := holder.set cur (asU16 s)
      if cur + 1 = channels then readLoop channels holder 0 (acc ++ [joinHolder holder]) rest
      else readLoop channels holder (cur + 1) acc rest
    else .error .index

/-- `read_metrics_from_wav` (wav2wbro.rs:35-59) once `hound` has opened the file. -/
def readMetrics (channels : Nat) (samples : List (Option Int)) : Except Panic (List F64) := readLoop channels [0, 0, 0, 0] 0 [] samples

/-- `header.starts_with(b"RIFF") && &header[8..12] == b"WAVE"` (wav2wbro.rs:25-33); a file of fewer than 12 bytes panics. -/
def isWav (file : Bytes) : Except Panic Bool :=
  if file.length < 12 then .error .unwrap
  else .ok (decide (file.take 4 = [82, 73, 70, 70]) && decide ((file.drop 8).take 4 = [87, 65, 86, 69]))

/-- The conversion of `main` (wav2wbro.rs:93-101): NaN values are skipped, the rest is written. -/
def convert (p : Profile) (data : List F64) : Except Panic Bytes := do
  let w ← WavBrro.addAll p .new (data.filter fun x => !x.isNaN)
  w.toFile

/-- `Vec<f64> == Vec<f64>`. -/
def vecEq : List F64 → List F64 → Bool
  | [], [] => true
  | a :: as, b :: bs => a.feq b && vecEq as bs
  | _, _ => false

/-- `--validate` (wav2wbro.rs:102-108): `assert_eq!(wav_data, brro_data)`. -/
def validate (data kept : List F64) : Except Panic Unit := if vecEq data kept then .ok () else .error .explicit

/-- Contents of the regular files, by name. -/
abbrev Files := List Char → Option Bytes

/-- `filename.strip_suffix("wav")`. -/
def stripWav (name : List Char) : Option (List Char) :=
  if "wav".toList <:+ name then some (name.take (name.length - 3)) else none

/-- `read_metrics_from_wav` (wav2wbro.rs:35-59) on the content of the file; `hound` is `hound::WavReader::open` followed by `samples::<i16>`: `none` when the
file cannot be opened as WAV, otherwise the number of channels and the samples. -/
def readWav (hound : Bytes → Option (Nat × List (Option Int))) (content : Bytes) : Except Panic (List F64) :=
  match hound content with
  | none => .ok []
  | some (channels, samples) => readMetrics channels samples

/-- `main` (wav2wbro.rs:84-109) after argument parsing: the files afterwards and whether the program ended without a panic.  `hound` is the external
WAV reader on the content of the file: `none` when it cannot open it, in which case `read_metrics_from_wav` returns no values (wav2wbro.rs:36-42).
Simplification: the output can always be created and written; file names are valid UTF-8. -/
def wavMain (hound : Bytes → Option (Nat × List (Option Int))) (p : Profile) (fs : Files) (name : List Char) (validateFlag : Bool) :
    Files × Except Panic Unit :=
  match fs name with
  | none => (fs, .error .unwrap)
  | some content =>
    match isWav content with
    | .error e => (fs, .error e)
    | .ok false => (fs, .error .explicit)
    | .ok true =>
      match readWav hound content with
      | .error e => (fs, .error e)
      | .ok data =>
        match WavBrro.addAll p .new (data.filter fun x => !x.isNaN) with
        | .error e => (fs, .error e)
        | .ok w =>
          match stripWav name with
          | none => (fs, .error .unwrap)
          | some stem =>
            match w.toFile with
            | .error e => (fs, .error e)
            | .ok out =>
              let fs' : Files := fun q => if q = stem ++ "wbro".toList then some out else fs q
              (fs', if validateFlag then validate data w.getSamples else .ok ())

end Atsc.Wav
