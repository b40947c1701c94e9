import Verif.Props.Auto
/- C99: the size recorded in a frame. -/
namespace Atsc

/-- The number of bytes a count takes in the file. -/
def countBytes (n : Nat) : Nat := if n < 251 then 1 else if n < 65536 then 3 else if n < 4294967296 then 5 else 9

theorem encVar_size (n : Nat) : (encVar n).length = countBytes n := by
  unfold encVar countBytes
  split_ifs <;> first | rfl | (rw [List.length_cons, leBytes_length]) | omega

/-- **C99, exactly.** The frame a call adds records the size 41, whatever it holds; in the file it takes two bytes, the counts of samples and of payload bytes,
and the payload. -/
theorem C99_size (E : Ext) (p : Profile) (s : Stream) (op : ChunkOp) (g : Frame) (h : op.Adds E p s g) :
    g.frameSize = 41 ∧ g.enc.length = 2 + countBytes op.chunk.length + countBytes g.data.length + g.data.length := by
  obtain ⟨f, hf, rfl⟩ := adds_inv h
  have hc := op_frame_count hf
  refine ⟨rfl, ?_⟩
  have h1 : (encVar 41).length = 1 := rfl
  have h2 : (encCompressor f.compressor).length = 1 := by cases f.compressor <;> rfl
  show (encVar 41 ++ encVar f.sampleCount ++ encCompressor f.compressor ++ encVec encU8 f.data).length = 2 + _ + countBytes f.data.length + f.data.length
  simp only [encVec, List.length_append, encU8s_length, h1, h2, encVar_size, hc]
  omega

/-- C99 refuted: the recorded size is wrong for every payload of at most 20 or at least 38 bytes. -/
theorem C99_refuted_size (E : Ext) (p : Profile) (s : Stream) (op : ChunkOp) (g : Frame) (h : op.Adds E p s g) (hp : g.data.length ≤ 20 ∨ 38 ≤ g.data.length) :
    g.frameSize ≠ g.enc.length := by
  obtain ⟨h1, h2⟩ := C99_size E p s op g h
  rw [h1, h2]
  unfold countBytes
  split_ifs <;> omega

/-- C99: nothing depends on the recorded sizes: a stream with other recorded sizes uncompresses to the same samples. -/
theorem C99_ignored (E : Ext) (s : Stream) (sizes : Frame → Nat) :
    ({ s with frames := s.frames.map fun f => { f with frameSize := sizes f } } : Stream).decompress E = s.decompress E := by
  unfold Stream.decompress
  dsimp only
  generalize s.frames = fs
  induction fs with
  | nil => rfl
  | cons f fs ih =>
    rw [List.map_cons, decompressAll, decompressAll, ih]
    rfl

/-- Both kinds occur: a Noop frame of 40 samples takes 46 bytes, one of 35 samples takes the recorded 41. -/
example : okAnd ((ChunkOp.plain (List.replicate 40 FP.zero)).apply Ext.dummy .debug .new)
    (fun s => s.frames.map (fun g => (g.frameSize, g.enc.length, g.data.length)) = [(41, 46, 42)]) = true := by decide +kernel
example : okAnd ((ChunkOp.plain (List.replicate 35 FP.zero)).apply Ext.dummy .debug .new)
    (fun s => s.frames.map (fun g => (g.frameSize, g.enc.length)) = [(41, 41)]) = true := by decide +kernel

end Atsc
