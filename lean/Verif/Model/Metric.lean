import Verif.Model.Files
/- Model of /repo/csv-compressor/src/metric.rs and of the pipeline of /repo/csv-compressor/src/main.rs. -/
namespace Atsc

/-- `struct Sample` (csv-compressor/src/csv.rs:27-30). -/
structure MSample where
  timestamp : Int
  value : F64
  deriving DecidableEq

/-- `struct Metric` (metric.rs:25-28). -/
structure Metric where
  wbro : WavBrro
  vsri : Vsri
  deriving DecidableEq

namespace Metric

/-- `Metric::default` (metric.rs:24, with `WavBrro::default` and `Vsri::default`, both the empty ones). -/
def default : Metric := ⟨.new, .new⟩

/-- `append_samples` (metric.rs:55-68): the metric afterwards and the sample of `UpdateForPointError`, if any.  `i64` division by 1000 truncates
toward zero. -/
def appendSamples (p : Profile) (valid : Int → Bool) : Metric → List MSample → Except Panic (Metric × Option MSample)
  | m, [] => .ok (m, none)
  | m, s :: ss => do
    let ts ← dayElapsedSeconds valid (s.timestamp.tdiv 1000)
    let (v, ok) ← m.vsri.update p ts
    if ok then do
      let w ← m.wbro.addSample p s.value
      appendSamples p valid ⟨w, v⟩ ss
    else .ok (⟨m.wbro, v⟩, some s)

/-- `from_samples` (metric.rs:71-75): on error the metric is dropped. -/
def fromSamples (p : Profile) (valid : Int → Bool) (ss : List MSample) : Except Panic (Except MSample Metric) := do
  let (m, e) ← appendSamples p valid default ss
  match e with
  | none => .ok (.ok m)
  | some s => .ok (.error s)

/-- The closure of `get_samples` over `enumerate()` from `i` on (metric.rs:90-100): `i as i32` wraps, `get_time(..).unwrap()`. -/
def stamp (p : Profile) (v : Vsri) : Nat → List F64 → Except Panic (List MSample)
  | _, [] => .ok []
  | i, x :: xs => do
    match ← v.getTime p (wrap32 i) with
    | none => .error .unwrap
    | some t => do
      let r ← stamp p v (i + 1) xs
      .ok (⟨t, x⟩ :: r)

/-- `get_samples` (metric.rs:90-100). -/
def getSamples (p : Profile) (m : Metric) : Except Panic (List MSample) := stamp p m.vsri 0 m.wbro.getSamples

end Metric

/-- What the compress side of csv-compressor leaves for the uncompress side (main.rs:181-210): the `.bro` content and the `.vsri` content
(`--output-vsri`).  `process_csv` panics on a refused sample. -/
def csvCompress (E : Ext) (p : Profile) (valid : Int → Bool) (a : CompArgs) (ss : List MSample) : Except Panic (Bytes × List Char) := do
  match ← Metric.fromSamples p valid ss with
  | .error _ => .error .unwrap
  | .ok m => do
    let bs ← compressData E p m.wbro.getSamples a
    .ok (bs, m.vsri.flush)

/-- The uncompress side (main.rs:148-180): the samples written to the CSV file. -/
def csvUncompress (E : Ext) (p : Profile) (bro : Bytes) (vsri : List Char) : Except Panic (List MSample) := do
  let d ← decompressData E bro
  let w ← WavBrro.addAll p .new d
  let v ← Vsri.load vsri
  Metric.getSamples p ⟨w, v⟩

end Atsc
