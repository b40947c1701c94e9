import Verif.Model.Compressor
/- Model of /repo/atsc/src/optimizer/mod.rs. -/
namespace Atsc

/-- `MAX_FRAME_SIZE`, `MIN_FRAME_SIZE` (/repo/atsc/src/optimizer/mod.rs:27, 30). -/
def maxFrameSize : Nat := 131072
def minFrameSize : Nat := 512

/-- `OptimizerPlan::clean_data` (optimizer/mod.rs:64-71). -/
def cleanData (data : List F64) : List F64 := data.filter fun x => !(x.isNaN || x.isInf)

/-- The loop of `get_chunks_sizes` (optimizer/mod.rs:78-98), with fuel. -/
def chunkLoop : Nat → Nat → List Nat
  | 0, _ => []
  | fuel + 1, len =>
    if len = 0 then []
    else if len ≥ maxFrameSize then maxFrameSize :: chunkLoop fuel (len - maxFrameSize)
    else if len ≤ minFrameSize then [len]
    else prevPowerOfTwo len :: chunkLoop fuel (len - prevPowerOfTwo len)

/-- `get_chunks_sizes` (optimizer/mod.rs:78-98).  Every iteration removes at least one sample. -/
def chunkSizes (len : Nat) : List Nat := chunkLoop len len

/-- `struct OptimizerPlan` (optimizer/mod.rs:38-43). -/
structure Plan where
  data : List F64
  chunkSizes : List Nat
  compressors : List Compressor

/-- `assign_compressor` with `max_error = None` (optimizer/mod.rs:117-135); `get_compressor` (112-115) always answers
`FFT` (the iterator it builds over `f64_to_u64` is never consumed).  The slice `clean_data[s..s+size]` panics when out of
range. -/
def assignCompressor (n : Nat) : Nat → List Nat → Except Panic (List Compressor)
  | _, [] => .ok []
  | s, size :: rest =>
    if n < s + size then .error .index
    else do
      let cs ← assignCompressor n (s + size) rest
      .ok (.fft :: cs)

/-- `OptimizerPlan::plan` (optimizer/mod.rs:47-56). -/
def Plan.plan (data : List F64) : Except Panic Plan := do
  let c := cleanData data
  let chunks := Atsc.chunkSizes c.length
  let opt ← assignCompressor c.length 0 chunks
  .ok { data := c, chunkSizes := chunks, compressors := opt }

/-- `set_compressor` (optimizer/mod.rs:58-61). -/
def Plan.setCompressor (p : Plan) (c : Compressor) : Plan :=
  { p with compressors := List.replicate p.compressors.length c }

/-- The loop of `get_execution` (optimizer/mod.rs:101-109): `i` the chunk number, `s` the start offset. -/
def execLoop (p : Plan) : Nat → Nat → List Nat → Except Panic (List (Compressor × List F64))
  | _, _, [] => .ok []
  | i, s, size :: rest =>
    match p.compressors[i]? with
    | none => .error .index
    | some c =>
      if p.data.length < s + size then .error .index
      else do
        let r ← execLoop p (i + 1) (s + size) rest
        .ok ((c, (p.data.drop s).take size) :: r)

/-- `get_execution` (optimizer/mod.rs:101-109). -/
def Plan.getExecution (p : Plan) : Except Panic (List (Compressor × List F64)) := execLoop p 0 0 p.chunkSizes

end Atsc
