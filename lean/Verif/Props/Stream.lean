import Verif.Lemmas.Stream
import Verif.Spec.Dummy
/-
C01-C06, C08: the compressed stream container.

`Built E p ops s`: the stream `s` results from the calls `ops` of the public chunk-compression API on a new stream, in
build profile `p`, with external libraries `E` (both arbitrary).  The hypotheses `... < 2 ^ 64` say that the chunks and the
serialised bytes fit a 64-bit address space.
-/
namespace Atsc

/-- A concrete history used to show that the hypotheses below are satisfiable. -/
def demoOps : List ChunkOp :=
  [.using [F64.lit 1, F64.lit 1, F64.lit 2] .rle, .plain [F64.lit 7, F64.lit (-3)],
   .bounded [F64.lit 5, F64.lit 5] .auto (FP.ofInt 0) 0]

/-- The stream the history `demoOps` builds. -/
def demoStream : Stream :=
  { header := { version := 1, frameCount := 3 }
    frames := [⟨41, 3, .rle, [60, 3, 2, 1, 1, 0, 2, 1, 2]⟩, ⟨41, 2, .noop, [250, 2, 14, 5]⟩, ⟨41, 2, .constant, [30, 3, 5]⟩] }

theorem demo_built : Built Ext.dummy .debug demoOps demoStream := by
  unfold Built; decide +kernel

/-! ### C01 -/

/-- C01: reading back the bytes of any built stream gives exactly that stream (header, frame count byte, frames). -/
theorem C01_stream_roundtrip (E : Ext) (p : Profile) (ops : List ChunkOp) (s : Stream) (hb : Built E p ops s)
    (hin : ∀ op ∈ ops, op.chunk.length < 2 ^ 64) (hout : s.toBytes.length < 2 ^ 64) :
    Stream.fromBytes s.toBytes = .ok s := by
  have h := fromBytes_toBytes_append (built_fits hb hin hout) (by rw [(built_ok hb).1]; decide) []
  rwa [List.append_nil] at h

/-- C01: hence the re-read stream decompresses to the same samples (or fails in the same way). -/
theorem C01_decompress_after_roundtrip (E : Ext) (p : Profile) (ops : List ChunkOp) (s : Stream) (hb : Built E p ops s)
    (hin : ∀ op ∈ ops, op.chunk.length < 2 ^ 64) (hout : s.toBytes.length < 2 ^ 64) :
    ∃ t, Stream.fromBytes s.toBytes = .ok t ∧ t.decompress E = s.decompress E :=
  ⟨s, C01_stream_roundtrip E p ops s hb hin hout, rfl⟩

example : (∀ op ∈ demoOps, op.chunk.length < 2 ^ 64) ∧ demoStream.toBytes.length < 2 ^ 64 := by decide

/-! ### C02 -/

/-- C02: no strict prefix of the bytes of a built stream is accepted. -/
theorem C02_truncation_rejected (E : Ext) (p : Profile) (ops : List ChunkOp) (s : Stream) (hb : Built E p ops s)
    (hin : ∀ op ∈ ops, op.chunk.length < 2 ^ 64) (hout : s.toBytes.length < 2 ^ 64)
    (k : Nat) (hk : k < s.toBytes.length) : ∀ t, Stream.fromBytes (s.toBytes.take k) ≠ .ok t := by
  intro t ht
  obtain ⟨e, he⟩ := fromBytes_prefix (built_fits hb hin hout) hk
  rw [he] at ht; cases ht

example : Stream.fromBytes (demoStream.toBytes.take 20) = .error .unwrap := by decide +kernel

/-! ### C03 -/

/-- C03: bytes after the encoded stream do not change what is read. -/
theorem C03_trailing_bytes_ignored (E : Ext) (p : Profile) (ops : List ChunkOp) (s : Stream) (hb : Built E p ops s)
    (hin : ∀ op ∈ ops, op.chunk.length < 2 ^ 64) (hout : s.toBytes.length < 2 ^ 64) (extra : Bytes) :
    Stream.fromBytes (s.toBytes ++ extra) = .ok s :=
  fromBytes_toBytes_append (built_fits hb hin hout) (by rw [(built_ok hb).1]; decide) extra

/-- C03, for any input at all: if some bytes are accepted, extending them does not change the result. -/
theorem C03_accepted_input_extends (bs extra : Bytes) (s : Stream) (h : Stream.fromBytes bs = .ok s) :
    Stream.fromBytes (bs ++ extra) = .ok s := by
  unfold Stream.fromBytes at h ⊢
  split_ifs at h with h9
  rw [if_neg (by simp; omega)]
  obtain ⟨hd, hh, h⟩ := bind_ok_iff.1 h
  obtain ⟨fs, hfs, h⟩ := bind_ok_iff.1 h
  rw [List.take_append_of_le_length (by omega), List.drop_append_of_le_length (by omega), hh, ok_bind]
  unfold unwrapDec at hfs ⊢
  cases hd : decVec Frame.dec (bs.drop 9) with
  | none => simp [hd] at hfs
  | some pr =>
    rw [(stable_decVec stable_frame) _ pr.1 pr.2 extra hd]
    simp only [hd] at hfs
    injection hfs with hfs
    simp only [ok_bind, hfs]; exact h

example : Stream.fromBytes (demoStream.toBytes ++ [1, 2, 3]) = .ok demoStream := by decide +kernel

/-! ### C04 -/

/-- The little-endian number in bytes 4..7 of a file. -/
def versionField (bs : Bytes) : Nat :=
  match bs with
  | _ :: _ :: _ :: _ :: a :: b :: c :: d :: _ => a.toNat + 256 * (b.toNat + 256 * (c.toNat + 256 * d.toNat))
  | _ => 0

/-- C04: an accepted input has at least 9 bytes, starts with `BRRO`, carries a version of at most 1, and the version and
frame count of the result are the ones of the header bytes. -/
theorem C04_accepted_is_supported (bs : Bytes) (s : Stream) (h : Stream.fromBytes bs = .ok s) :
    9 ≤ bs.length ∧ bs.take 4 = "BRRO".toUTF8.toList ∧ versionField bs ≤ 1 ∧
      s.header.version.toNat = versionField bs ∧ bs[8]? = some s.header.frameCount := by
  unfold Stream.fromBytes at h
  split_ifs at h with h9
  obtain ⟨hd, hh, h⟩ := bind_ok_iff.1 h
  obtain ⟨fs, hfs, h⟩ := bind_ok_iff.1 h
  injection h with h; subst h
  have hb : ("BRRO".toUTF8.toList : Bytes) = brro := by decide +kernel
  obtain ⟨b0, b1, b2, b3, b4, b5, b6, b7, b8, r, rfl⟩ :
      ∃ b0 b1 b2 b3 b4 b5 b6 b7 b8 r, bs = b0 :: b1 :: b2 :: b3 :: b4 :: b5 :: b6 :: b7 :: b8 :: r := by
    match bs, h9 with
    | b0 :: b1 :: b2 :: b3 :: b4 :: b5 :: b6 :: b7 :: b8 :: r, _ => exact ⟨_, _, _, _, _, _, _, _, _, _, rfl⟩
    | [], h | [_], h | [_, _], h | [_, _, _], h | [_, _, _, _], h | [_, _, _, _, _], h | [_, _, _, _, _, _], h
    | [_, _, _, _, _, _, _], h | [_, _, _, _, _, _, _, _], h => simp at h
  unfold Header.fromBytes at hh
  simp only [List.take_succ_cons, List.take_zero, List.drop_succ_cons, List.drop_zero] at hh
  split_ifs at hh with c1 c2
  simp only [List.getElem?_cons_succ, List.getElem?_cons_zero] at hh
  injection hh with hh; subst hh
  have hlt := ofLE_lt [b4, b5, b6, b7]
  have ev : (UInt32.ofNat (ofLE [b4, b5, b6, b7])).toNat = b4.toNat + 256 * (b5.toNat + 256 * (b6.toNat + 256 * b7.toNat)) := by
    have : ofLE [b4, b5, b6, b7] = b4.toNat + 256 * (b5.toNat + 256 * (b6.toNat + 256 * b7.toNat)) := by simp [ofLE]
    simp only [List.length_cons, List.length_nil] at hlt
    rw [UInt32.toNat_ofNat', Nat.mod_eq_of_lt (by omega), this]
  refine ⟨by simp, ?_, ?_, ev, rfl⟩
  · rw [hb]; simpa using c1
  · have h1 := UInt32.not_lt.1 c2
    have h2 : (UInt32.ofNat (ofLE [b4, b5, b6, b7])).toNat ≤ 1 := h1
    rwa [ev] at h2

/-- C04: a file of a newer version is rejected, whatever follows its header. -/
theorem C04_newer_version_rejected (bs : Bytes) (h : 1 < versionField bs) : ∀ s, Stream.fromBytes bs ≠ .ok s := by
  intro s hs
  have := (C04_accepted_is_supported bs s hs).2.2.1
  omega

/-- C04: a file without the magic bytes is rejected. -/
theorem C04_bad_magic_rejected (bs : Bytes) (h : bs.take 4 ≠ "BRRO".toUTF8.toList) : ∀ s, Stream.fromBytes bs ≠ .ok s :=
  fun s hs => h (C04_accepted_is_supported bs s hs).2.1

example : Stream.fromBytes demoStream.toBytes = .ok demoStream := by decide +kernel
example : 1 < versionField [66, 82, 82, 79, 9, 0, 0, 0, 0, 0] := by decide

/-! ### C05 -/

/-- C05: for at most 255 chunks the header counts exactly the frames, in both build profiles.
More than 255 chunks: `C05_count_wraps` and `C05_debug_overflow`. -/
theorem C05_frame_count (E : Ext) (p : Profile) (ops : List ChunkOp) (s : Stream) (hb : Built E p ops s)
    (hn : ops.length ≤ 255) : s.header.frameCount.toNat = ops.length ∧ s.frames.length = ops.length := by
  obtain ⟨_, h2, _, fs, h4, h5⟩ := built_ok hb
  exact ⟨by rw [h2]; omega, by rw [h4, List.length_map, h5.length_eq]⟩

/-- C05 fails beyond 255 chunks: in a release build the count is the number of chunks modulo 256 (while all frames are
stored). -/
theorem C05_count_wraps (E : Ext) (ops : List ChunkOp) (s : Stream) (hb : Built E .release ops s) :
    s.header.frameCount.toNat = ops.length % 256 ∧ s.frames.length = ops.length := by
  obtain ⟨_, h2, _, fs, h4, h5⟩ := built_ok hb
  exact ⟨h2, by rw [h4, List.length_map, h5.length_eq]⟩

/-- C05 fails beyond 255 chunks: in a debug build no history of more than 255 chunks succeeds. -/
theorem C05_debug_overflow (E : Ext) (ops : List ChunkOp) (hn : 255 < ops.length) : ∀ s, ¬ Built E .debug ops s := by
  intro s hb
  have := (built_ok hb).2.2.1 rfl
  omega

/-- A history of 256 one-sample chunks: the release build stores 256 frames and reports 0. -/
theorem C05_refuted : ∃ s, Built Ext.dummy .release (List.replicate 256 (.plain [F64.lit 1])) s ∧
    s.header.frameCount = 0 ∧ s.frames.length = 256 := by
  have : ∃ s, Built Ext.dummy .release (List.replicate 256 (.plain [F64.lit 1])) s := by
    have key : ∀ n (s : Stream), ∃ t, s.runOps Ext.dummy .release (List.replicate n (.plain [F64.lit 1])) = .ok t := by
      intro n
      induction n with
      | zero => exact fun s => ⟨s, rfl⟩
      | succ n ih =>
        intro s
        have hf : (ChunkOp.plain [F64.lit 1]).frame Ext.dummy = .ok ⟨0, 1, .noop, [250, 1, 2]⟩ := by decide +kernel
        rw [List.replicate_succ, Stream.runOps, apply_eq, hf, ok_bind]
        simp only [Stream.push, Header.addFrame, reduceCtorEq, and_false, if_false, ok_bind]
        exact ih _
    exact key 256 _
  obtain ⟨s, hs⟩ := this
  have h := C05_count_wraps _ _ s hs
  refine ⟨s, hs, UInt8.toNat.inj ?_, by rw [h.2, List.length_replicate]⟩
  rw [h.1, List.length_replicate]; rfl

/-! ### C06 -/

/-- C06: decompressing a built stream gives the concatenation, in order, of what each chunk alone gives. -/
theorem C06_decompress_concat (E : Ext) (p : Profile) (ops : List ChunkOp) (s : Stream) (hb : Built E p ops s) :
    s.decompress E = concatOk (ChunkOp.alone E p) ops := decompress_built hb

/-- C06: adding a later chunk keeps what the earlier ones decode to, as a prefix. -/
theorem C06_later_chunk_keeps_prefix (E : Ext) (p : Profile) (s t : Stream) (op : ChunkOp) (out : List F64)
    (ht : op.apply E p s = .ok t) (hd : t.decompress E = .ok out) :
    ∃ a b, s.decompress E = .ok a ∧ op.alone E p = .ok b ∧ out = a ++ b := by
  obtain ⟨f, hf, hp⟩ := apply_ok ht
  obtain ⟨p1, _⟩ := push_ok hp
  rw [Stream.decompress, p1, decompressAll_append] at hd
  obtain ⟨a, ha, hd⟩ := bind_ok_iff.1 hd
  obtain ⟨b, hb, hd⟩ := bind_ok_iff.1 hd
  refine ⟨a, b, ha, ?_, by injection hd with hd; exact hd.symm⟩
  rw [alone_eq hf]
  simp only [decompressAll, decompress_close] at hb
  obtain ⟨c, hc, hb⟩ := bind_ok_iff.1 hb
  rw [hc]; simp [ok_bind] at hb; rw [hb]

example : demoStream.decompress Ext.dummy =
    .ok [F64.lit 1, F64.lit 1, F64.lit 2, F64.lit 7, F64.lit (-3), F64.lit 5, F64.lit 5] := by decide +kernel

/-! ### C08 -/

/-- C08: two streams (fitting memory) with the same bytes are the same stream. -/
theorem C08_injective (s t : Stream) (hs : FitsMemory s) (ht : FitsMemory t) (h : s.toBytes = t.toBytes) : s = t := by
  have hh : s.header = t.header := by
    have h1 : s.toBytes.take 9 = t.toBytes.take 9 := by rw [h]
    have e : ∀ u : Stream, u.toBytes.take 9 = u.header.toBytes := by
      intro u
      rw [Stream.toBytes, ← header_toBytes_length u.header, List.take_left' rfl]
    rw [e, e] at h1
    have hv : ∀ u : Header, u.version = UInt32.ofNat (ofLE ((u.toBytes.drop 4).take 4)) := by
      intro u
      have e2 : ((u.toBytes.drop 4).take 4) = leBytes 4 u.version.toNat := by simp [Header.toBytes, brro, leBytes]
      rw [e2, ofLE_leBytes 4 _ (by have := u.version.toNat_lt; omega)]; simp
    have hc : ∀ u : Header, u.toBytes[8]? = some u.frameCount := by intro u; simp [Header.toBytes, brro, leBytes]
    have v : s.header.version = t.header.version := by rw [hv, hv t.header, h1]
    have c : s.header.frameCount = t.header.frameCount := by
      have := hc s.header; rw [h1, hc] at this; exact (Option.some.inj this).symm
    cases hsh : s.header; cases hth : t.header
    simp only [hsh, hth] at v c; rw [v, c]
  have hf : s.frames = t.frames := by
    have h1 : s.toBytes.drop 9 = t.toBytes.drop 9 := by rw [h]
    have e : ∀ u : Stream, u.toBytes.drop 9 = encVec Frame.enc u.frames := by
      intro u
      rw [Stream.toBytes, ← header_toBytes_length u.header, List.drop_left' rfl]
    rw [e, e] at h1
    have r1 := rt_vec rt_frame s.frames [] hs.frames
    have r2 := rt_vec rt_frame t.frames [] ht.frames
    rw [h1, r2] at r1
    simp at r1; exact r1.symm
  cases s; cases t; simp_all

example : FitsMemory demoStream := by
  refine ⟨by decide, ?_⟩
  decide

end Atsc
