import Verif.Model.Path
/- Several runs of atsc at the same time: `process_single_file` (/repo/atsc/src/main.rs:70-127) as a sequence of file operations that other runs can come between.

Simplified: nothing fails (see `Io.lean`) and nobody else writes; the file names are path texts, as in `Path.lean`.  A file read or written is read or written
in pieces of any size (the real pieces, such as the two `write_at` calls of write.rs:24-26, are among them). -/
namespace Atsc

/-- One run of atsc on a file: its environment, arguments and the input. -/
structure Job where
  env : Env
  args : RunArgs
  input : List Char

/-- The file it writes (main.rs:81, 110, 123). -/
def Job.output (j : Job) : List Char := setExtension j.input (if j.args.uncompress then "wbro".toList else "bro".toList)

/-- Where a run has got to. -/
inductive Phase where
  | start
  /-- the file is open for its header, of which this has been read (bro_reader.rs:41-48, read.rs:23-29) -/
  | head (got : Bytes)
  /-- the file is open for its content, of which this has been read (bro_reader.rs:24-29, read.rs:31-37, csv.rs) -/
  | reading (got : Bytes)
  /-- the output is computed, its file not created yet -/
  | creating (out : Bytes)
  /-- the output file is created, `pos` bytes are written, `rest` is not (write.rs:21-28, main.rs:111, 124) -/
  | writing (pos : Nat) (rest : Bytes)
  | ended (e : Ended)

/-- The first file operation (main.rs:73, 84, 114): a CSV file is read at once. -/
def Job.first (j : Job) : Phase := if ¬ j.args.uncompress ∧ j.args.csv then .reading [] else .head []

/-- The offset the content is read from: a WBRO file without its header (read.rs:34), the others whole. -/
def Job.from (j : Job) : Nat := if ¬ j.args.uncompress ∧ ¬ j.args.csv then 12 else 0

/-- After the header (bro_reader.rs:31-38, read.rs:28, wavbrro.rs:105-107). -/
def Job.afterHead (j : Job) (got : Bytes) : Phase :=
  if got.length < 12 then .ended .err
  else if j.args.uncompress then (if got.take 4 = brro then .reading [] else .ended .ok)
  else if WavBrro.sliceAt got 0 4 = WavBrro.wbro ∧ WavBrro.sliceAt got 8 4 = WavBrro.wbro then .reading [] else .ended .err

/-- The end of the computation: an output or a panic (main.rs:106-108, 119-121). -/
def Job.compressed (j : Job) (d : List F64) : Phase :=
  match compressData j.env.E j.env.p d j.args.comp with
  | .error _ => .ended .panicked
  | .ok bs => .creating bs

/-- After the content (main.rs:73-126). -/
def Job.afterRead (j : Job) (got : Bytes) : Phase :=
  if j.args.uncompress then
    match decompressData j.env.E got with
    | .error _ => .ended .panicked
    | .ok d =>
      match WavBrro.toFileWithData d with
      | .error _ => .ended .panicked
      | .ok out => .creating out
  else if j.args.csv then
    match readCsv j.env j.args got with
    | .error _ => .ended .panicked
    | .ok (.error _) => .ended .err
    | .ok (.ok d) => j.compressed d
  else
    match WavBrro.fromBytes j.env.addr got with
    | .error _ => .ended .panicked
    | .ok w => j.compressed w.getSamples

/-- A file after `bs` has been written at offset `pos` (write(2): a gap is filled with zeros). -/
def patch (c : Bytes) (pos : Nat) (bs : Bytes) : Bytes :=
  c.take pos ++ List.replicate (pos - c.length) 0 ++ bs ++ c.drop (pos + bs.length)

/-- The file operations of one run (main.rs:70-127). -/
inductive Job.Step (j : Job) : Phase → Disk → Phase → Disk → Prop
  | missing {d : Disk} : d j.input = none → j.Step .start d (.ended .err) d
  | found {d : Disk} {c : Bytes} : d j.input = some c → j.Step .start d j.first d
  | headMore {d : Disk} {c got : Bytes} {n : Nat} : d j.input = some c → got.length < c.length → 0 < n → got.length + n ≤ 12 →
      j.Step (.head got) d (.head (got ++ (c.drop got.length).take n)) d
  | headDone {d : Disk} {c got : Bytes} : d j.input = some c → got.length = 12 ∨ c.length ≤ got.length → j.Step (.head got) d (j.afterHead got) d
  | readMore {d : Disk} {c got : Bytes} {n : Nat} : d j.input = some c → j.from + got.length < c.length → 0 < n →
      j.Step (.reading got) d (.reading (got ++ (c.drop (j.from + got.length)).take n)) d
  | readDone {d : Disk} {c got : Bytes} : d j.input = some c → c.length ≤ j.from + got.length → j.Step (.reading got) d (j.afterRead got) d
  | create {d : Disk} {out : Bytes} : j.Step (.creating out) d (.writing 0 out) (d.write j.output [])
  | write {d : Disk} {pos n : Nat} {c rest : Bytes} : d j.output = some c → rest ≠ [] → 0 < n →
      j.Step (.writing pos rest) d (.writing (pos + (rest.take n).length) (rest.drop n)) (d.write j.output (patch c pos (rest.take n)))
  | close {d : Disk} {pos : Nat} : j.Step (.writing pos []) d (.ended .ok) d

/-- Where all the runs have got to, and the files. -/
structure Sys (ι : Type) where
  at_ : ι → Phase
  disk : Disk

/-- Before anything happens. -/
def Sys.begin {ι : Type} (disk : Disk) : Sys ι := ⟨fun _ => .start, disk⟩

/-- An execution: the runs make steps in the order `sched`. -/
inductive Exec {ι : Type} [DecidableEq ι] (jobs : ι → Job) : List ι → Sys ι → Sys ι → Prop
  | nil (s : Sys ι) : Exec jobs [] s s
  | step {sched : List ι} {s t : Sys ι} {i : ι} {ph : Phase} {d : Disk} : Exec jobs sched s t → (jobs i).Step (t.at_ i) t.disk ph d →
      Exec jobs (sched ++ [i]) s ⟨fun k => if k = i then ph else t.at_ k, d⟩

end Atsc
