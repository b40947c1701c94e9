import Verif.Props.Cli
import Verif.Props.FrameSize
/- C101: damaged files. -/
namespace Atsc

/-- Specification: a file with this version, frame count and content after the header. -/
def fileWith (version : Nat) (count : UInt8) (rest : Bytes) : Bytes := "BRRO".toUTF8.toList ++ leBytes 4 version ++ [count] ++ rest

theorem fileWith_read (v : Nat) (hv : v ≤ 1) (c : UInt8) (rest : Bytes) :
    Stream.fromBytes (fileWith v c rest) = (do let fs ← unwrapDec (decVec Frame.dec) rest; .ok { header := { version := UInt32.ofNat v, frameCount := c }, frames := fs }) := by
  have h : fileWith v c rest = [66, 82, 82, 79, UInt8.ofNat v, 0, 0, 0, c] ++ rest := by
    have : v = 0 ∨ v = 1 := by omega
    have e : "BRRO".toUTF8.toList = [66, 82, 82, 79] := by decide +kernel
    unfold fileWith
    rw [e]
    rcases this with rfl | rfl <;> rfl
  rw [h]
  unfold Stream.fromBytes
  rw [if_neg (by simp), List.take_append_of_le_length (by simp), List.drop_append_of_le_length (by simp)]
  have : Header.fromBytes (([66, 82, 82, 79, UInt8.ofNat v, 0, 0, 0, c] : Bytes).take 9) = .ok { version := UInt32.ofNat v, frameCount := c } := by
    have : v = 0 ∨ v = 1 := by omega
    rcases this with rfl | rfl <;> rfl
  rw [this]
  rfl

/-- C101: the version (0 or 1) and the number of frames in the header have no influence on what a file uncompresses to. -/
theorem C101_header_ignored (E : Ext) (v v' : Nat) (hv : v ≤ 1) (hv' : v' ≤ 1) (c c' : UInt8) (rest : Bytes) :
    decompressData E (fileWith v c rest) = decompressData E (fileWith v' c' rest) := by
  unfold decompressData
  rw [fileWith_read v hv, fileWith_read v' hv']
  cases unwrapDec (decVec Frame.dec) rest <;> rfl

/-- C101: the first byte of the payload of a Noop, Constant, RLE or FFT frame, which names the compressor, has no influence. -/
theorem C101_id_ignored (E : Ext) (fr : Frame) (hc : fr.compressor = .noop ∨ fr.compressor = .constant ∨ fr.compressor = .rle ∨ fr.compressor = .fft)
    (x y : UInt8) (rest : Bytes) : ({ fr with data := x :: rest } : Frame).decompress E = ({ fr with data := y :: rest } : Frame).decompress E := by
  unfold Frame.decompress Compressor.decompress
  dsimp only
  rcases hc with h | h | h | h <;> rw [h] <;> dsimp only
  · unfold noopToData unwrapDec Noop.dec Dec.bind decU8
    dsimp only
    rcases h : decVec (decSigned 253) rest with _ | ⟨d, r⟩ <;> rfl
  · unfold constantToData unwrapDec Constant.dec Dec.bind decU8
    dsimp only
    rcases h : decBitdepth rest with _ | ⟨bd, r⟩
    · rfl
    · dsimp only
      rcases h2 : decValue bd r with _ | ⟨v, r2⟩ <;> rfl
  · have e : ∀ z : UInt8, IndexRLE.dec (z :: rest) = (decBitdepth.bind fun bd =>
        (decVec ((decValue bd).bind fun v => (decVec decU64).bind fun is => Dec.pure (v, is))).bind fun r => Dec.pure (IndexRLE.mk z r bd)) rest := fun _ => rfl
    unfold rleToData unwrapDec
    rw [e x, e y]
    unfold Dec.bind
    rcases h : decBitdepth rest with _ | ⟨bd, r⟩
    · rfl
    · dsimp only
      generalize decVec (fun bs => _) r = o
      rcases o with _ | ⟨rs, r2⟩ <;> rfl
  · have e : ∀ z : UInt8, Fft.dec (z :: rest) = ((decVec FreqPoint.dec).bind fun fs => decF32.bind fun mx => decF32.bind fun mn =>
        Dec.pure (Fft.mk z fs mx mn none)) rest := fun _ => rfl
    unfold fftToData unwrapDec
    rw [e x, e y]
    unfold Dec.bind
    rcases h : decVec FreqPoint.dec rest with _ | ⟨fs, r⟩
    · rfl
    · dsimp only
      rcases h1 : decF32 r with _ | ⟨mx, r1⟩
      · rfl
      · dsimp only
        rcases h2 : decF32 r1 with _ | ⟨mn, r2⟩
        · rfl
        · rfl

/-- C101: the frame size recorded with each frame has no influence. -/
theorem C101_size_ignored (E : Ext) (s : Stream) (size : Frame → Nat) :
    ({ s with frames := s.frames.map fun f => { f with frameSize := size f } } : Stream).decompress E = s.decompress E := by
  unfold Stream.decompress
  dsimp only
  induction s.frames with
  | nil => rfl
  | cons f fs ih => rw [List.map_cons, decompressAll, decompressAll, ih]; rfl

/-- Specification: two frames that differ at most in the recorded size and, for Noop, Constant, RLE and FFT, in the first byte of the payload. -/
def IgnoredApart (f g : Frame) : Prop :=
  f.sampleCount = g.sampleCount ∧ f.compressor = g.compressor ∧
    (f.data = g.data ∨ ((f.compressor = .noop ∨ f.compressor = .constant ∨ f.compressor = .rle ∨ f.compressor = .fft) ∧
      ∃ x y rest, f.data = x :: rest ∧ g.data = y :: rest))

/-- **C101, files.** Two files (of any streams of version 0 or 1, with any bytes after their ends) whose frames differ only in recorded sizes and compressor bytes, and
whose headers may differ in version and frame count, uncompress to the same samples or fail alike. -/
theorem C101_file (E : Ext) (s t : Stream) (hs : FitsMemory s) (ht : FitsMemory t) (hv : s.header.version ≤ 1) (hv' : t.header.version ≤ 1)
    (h : List.Forall₂ IgnoredApart s.frames t.frames) (after after' : Bytes) :
    decompressData E (s.toBytes ++ after) = decompressData E (t.toBytes ++ after') := by
  unfold decompressData
  rw [fromBytes_toBytes_append hs hv, fromBytes_toBytes_append ht hv']
  show s.decompress E = t.decompress E
  have key : ∀ f g, IgnoredApart f g → f.decompress E = g.decompress E := by
    rintro ⟨fs, fc, fk, fd⟩ ⟨gs, gc, gk, gd⟩ ⟨h1, h2, h3⟩
    dsimp only at h1 h2 h3
    subst h1; subst h2
    rcases h3 with rfl | ⟨hc, x, y, rest, rfl, rfl⟩
    · rfl
    · exact C101_id_ignored E ⟨fs, fc, fk, []⟩ hc x y rest
  unfold Stream.decompress
  generalize s.frames = l at h
  generalize t.frames = l' at h
  induction h with
  | nil => rfl
  | cons h _ ih => rw [decompressAll, decompressAll, key _ _ h, ih]

/-- Two such files: other version, count, recorded size, compressor byte, and something appended. -/
example : List.Forall₂ IgnoredApart [⟨41, 3, .constant, [30, 3, 5]⟩] [⟨7, 3, .constant, [77, 3, 5]⟩] ∧
    FitsMemory ⟨⟨1, 1⟩, [⟨41, 3, .constant, [30, 3, 5]⟩]⟩ ∧ FitsMemory ⟨⟨0, 200⟩, [⟨7, 3, .constant, [77, 3, 5]⟩]⟩ ∧
    decompressData Ext.dummy ((⟨⟨0, 200⟩, [⟨7, 3, .constant, [77, 3, 5]⟩]⟩ : Stream).toBytes ++ [1, 2, 3]) = .ok [F64.lit 5, F64.lit 5, F64.lit 5] := by
  refine ⟨.cons ⟨rfl, rfl, Or.inr ⟨Or.inr (Or.inl rfl), 30, 77, [3, 5], rfl, rfl⟩⟩ .nil, ⟨by decide +kernel, ?_⟩, ⟨by decide +kernel, ?_⟩, by decide +kernel⟩
  · intro f hf; rw [List.mem_singleton.1 hf]; decide
  · intro f hf; rw [List.mem_singleton.1 hf]; decide

/-- Specification: the two files differ in one byte. -/
def OneByteApart (a b : Bytes) : Prop := ∃ i x, i < a.length ∧ a[i]? ≠ some x ∧ b = a.set i x

def constArgs : CompArgs := { compressor := .constant, error := 3, level := 0 }

/-- C101 is false: three times 5, compressed; one byte changed; the file is read without a complaint and gives three times 6.
    Nothing in the format (no checksum) can notice it. -/
theorem C101_refuted : ∃ bs bs', constArgs.Valid ∧ compressData Ext.dummy .debug [F64.lit 5, F64.lit 5, F64.lit 5] constArgs = .ok bs ∧ OneByteApart bs bs' ∧
    decompressData Ext.dummy bs = .ok [F64.lit 5, F64.lit 5, F64.lit 5] ∧ decompressData Ext.dummy bs' = .ok [F64.lit 6, F64.lit 6, F64.lit 6] := by
  have h : okAnd (compressData Ext.dummy .debug [F64.lit 5, F64.lit 5, F64.lit 5] constArgs) (fun bs =>
    decide (16 < bs.length) && decide (bs[16]? ≠ some 6) && okAnd (decompressData Ext.dummy bs) (fun out => decide (out = [F64.lit 5, F64.lit 5, F64.lit 5])) &&
      okAnd (decompressData Ext.dummy (bs.set 16 6)) fun out => decide (out = [F64.lit 6, F64.lit 6, F64.lit 6])) = true := by decide +kernel
  obtain ⟨bs, h1, h⟩ := okAnd_iff.1 h
  simp only [Bool.and_eq_true, decide_eq_true_eq] at h
  obtain ⟨⟨⟨h2, h3⟩, h4⟩, h5⟩ := h
  obtain ⟨o, h6, h7⟩ := okAnd_iff.1 h4
  obtain ⟨o', h8, h9⟩ := okAnd_iff.1 h5
  rw [of_decide_eq_true h7] at h6
  rw [of_decide_eq_true h9] at h8
  exact ⟨bs, bs.set 16 6, ⟨by decide, by decide⟩, h1, ⟨16, 6, h2, h3, rfl⟩, h6, h8⟩

/-- The ignored header fields on that file: version 0 and a count of 200 read the same. -/
example : okAnd (compressData Ext.dummy .debug [F64.lit 5, F64.lit 5, F64.lit 5] constArgs) (fun bs => decide (bs = fileWith 1 1 (bs.drop 9)) &&
    okAnd (decompressData Ext.dummy (fileWith 0 200 (bs.drop 9))) fun out => decide (out = [F64.lit 5, F64.lit 5, F64.lit 5])) = true := by decide +kernel
/-- The ignored compressor byte: the payload of that file with 30 and with 77 in front. -/
example : ({ frameSize := 41, sampleCount := 3, compressor := .constant, data := [77, 3, 5] } : Frame).decompress Ext.dummy = .ok [F64.lit 5, F64.lit 5, F64.lit 5] := by decide +kernel

end Atsc
