import Mathlib.Data.List.Forall2
import Verif.Props.Sizes
/- C74: how many samples come out of bytes of unknown origin. -/
namespace Atsc
open FP

theorem rleFill_length (n : Nat) : ∀ (l : List (Nat × F64)) (d : List F64), (rleFill n l d).length = d.length := by
  intro l
  induction l with
  | nil => intro d; rfl
  | cons p l ih =>
    intro d
    cases l with
    | nil => exact fillRange_length _ _ _ _
    | cons q l => rw [rleFill, ih, fillRange_length]

theorem poly_toData_length (E : Ext) (c : Poly) (n : Nat) {out : List F64} (h : c.toData E n = .ok out) : out.length = n := by
  unfold Poly.toData at h
  split_ifs at h
  · rw [← Except.ok.inj h, List.length_replicate]
  · unfold Poly.interpolate at h
    cases hid : c.id <;> rw [hid] at h <;> dsimp only at h
    · unfold Poly.polynomialToData at h
      obtain ⟨ps, _, h⟩ := bind_ok_iff.1 h
      rw [← Except.ok.inj h, (splineSamples_spec _ _ _ _ _ _).1, List.length_range]
    · unfold Poly.idwToData at h
      obtain ⟨ps, _, h⟩ := bind_ok_iff.1 h
      rw [← Except.ok.inj h, List.length_map, List.length_range]

theorem mirrorLoop_length : ∀ (fs : List FreqPoint) (len : Nat) (d out : List C32), mirrorLoop len fs d = .ok out → out.length = d.length := by
  intro fs
  have hset : ∀ {d out : List C32} {i : Nat} {v : C32}, setAt d i v = .ok out → out.length = d.length := by
    intro d out i v h
    unfold setAt at h
    split_ifs at h
    rw [← Except.ok.inj h, List.length_set]
  induction fs with
  | nil => intro len d out h; rw [mirrorLoop] at h; rw [Except.ok.inj h]
  | cons f fs ih =>
    intro len d out h
    rw [mirrorLoop] at h
    obtain ⟨d1, h1, h⟩ := bind_ok_iff.1 h
    split_ifs at h
    · rw [ih _ _ _ h, hset h1]
    · obtain ⟨d2, h2, h⟩ := bind_ok_iff.1 h
      rw [ih _ _ _ h, hset h2, hset h1]

theorem fft_toData_length (E : Ext) (hE : E.Lawful) (c : Fft) (n : Nat) {out : List F64} (h : c.toData E n = .ok out) : out.length = n := by
  unfold Fft.toData at h
  by_cases hc : c.maxValue.feq c.minValue = true
  · rw [if_pos hc] at h
    rw [← Except.ok.inj h, List.length_replicate]
  · rw [if_neg hc] at h
    extract_lets added pre suf size at h
    obtain ⟨m, h1, h⟩ := bind_ok_iff.1 h
    have hm := mirrorLoop_length _ _ _ _ h1
    rw [List.length_replicate] at hm
    rw [← Except.ok.inj h, List.length_map, List.length_take, List.length_drop, hE.inv_len, hm]
    have : size = n + pre + suf := rfl
    clear_value pre suf size
    omega

/-- C74, what holds: whatever frames are decompressed (also ones no compressor wrote), if it succeeds each frame yields as many samples as it records, unless it is a Noop frame. -/
theorem C74_frame (E : Ext) (hE : E.Lawful) (f : Frame) (hc : f.compressor ≠ .noop) (out : List F64) (h : f.decompress E = .ok out) :
    out.length = f.sampleCount := by
  unfold Frame.decompress Compressor.decompress at h
  cases hk : f.compressor <;> rw [hk] at h <;> dsimp only at h
  · exact absurd hk hc
  · unfold fftToData at h; obtain ⟨c, _, h⟩ := bind_ok_iff.1 h; exact fft_toData_length E hE c _ h
  · unfold polyToData at h; obtain ⟨c, _, h⟩ := bind_ok_iff.1 h; exact poly_toData_length E c _ h
  · unfold constantToData at h; obtain ⟨c, _, h⟩ := bind_ok_iff.1 h; rw [← Except.ok.inj h]; exact List.length_replicate
  · unfold polyToData at h; obtain ⟨c, _, h⟩ := bind_ok_iff.1 h; exact poly_toData_length E c _ h
  · exact absurd h (by simp)
  · unfold rleToData at h; obtain ⟨c, _, h⟩ := bind_ok_iff.1 h
    rw [← Except.ok.inj h]; unfold IndexRLE.toData; dsimp only; rw [rleFill_length, List.length_replicate]

/-- C74 for a whole stream: whatever bytes were read, the samples are the sum of the recorded counts, if no frame is tagged Noop. -/
theorem C74_stream (E : Ext) (hE : E.Lawful) (bs : Bytes) (s : Stream) (hs : Stream.fromBytes bs = .ok s) (hc : ∀ f ∈ s.frames, f.compressor ≠ .noop)
    (out : List F64) (h : decompressData E bs = .ok out) : out.length = (s.frames.map fun f => f.sampleCount).sum := by
  unfold decompressData at h
  rw [hs, ok_bind] at h
  unfold Stream.decompress at h
  clear hs
  generalize s.frames = fs at *
  induction fs generalizing out with
  | nil => rw [decompressAll] at h; rw [← Except.ok.inj h]; rfl
  | cons f fs ih =>
    rw [decompressAll] at h
    obtain ⟨a, h1, h⟩ := bind_ok_iff.1 h
    obtain ⟨b, h2, h⟩ := bind_ok_iff.1 h
    rw [← Except.ok.inj h, List.length_append, C74_frame E hE f (hc f (by simp)) a h1, ih b (fun g hg => hc g (by simp [hg])) h2]
    simp

/-- A stream of one frame. -/
def oneFrame (c : Compressor) (n : Nat) (payload : Bytes) : Stream :=
  { header := { Header.new with frameCount := 1 }, frames := [{ frameSize := 41, sampleCount := n, compressor := c, data := payload }] }

theorem oneFrame_read (E : Ext) (c : Compressor) (n : Nat) (hn : n < 2 ^ 64) (payload : Bytes) (hl : payload.length < 2 ^ 32) :
    Stream.fromBytes (oneFrame c n payload).toBytes = .ok (oneFrame c n payload) ∧ (oneFrame c n payload).toBytes.length ≤ 26 + payload.length ∧
      decompressData E (oneFrame c n payload).toBytes = (c.decompress E n payload >>= fun a => .ok (a ++ [])) := by
  have hsz : (oneFrame c n payload).toBytes.length ≤ 26 + payload.length := by
    have hh : (oneFrame c n payload).header.toBytes.length = 9 := by unfold Header.toBytes brro; rw [List.length_append, List.length_append, leBytes_length]; rfl
    have e0 : (encVar 1).length = 1 := by decide
    have e1 : (encVar n).length ≤ 9 := by rw [C09_size]; unfold wireSize; split_ifs <;> omega
    have e2 := encVar_len_le payload.length hl
    have e3 : (encCompressor c).length = 1 := by cases c <;> decide
    have e4 : (encVar 41).length = 1 := by decide
    have e5 : ((payload.map encU8).flatten).length = payload.length := by
      clear * -
      induction payload with
      | nil => rfl
      | cons b d ih => rw [List.map_cons, List.flatten_cons, List.length_append, ih, encU8_len, List.length_cons]; omega
    unfold Stream.toBytes
    rw [List.length_append, hh]
    unfold oneFrame encVec Frame.enc encVec
    simp only [List.map_cons, List.map_nil, List.flatten_cons, List.flatten_nil, List.append_nil, List.length_append, List.length_cons, List.length_nil,
      e0, e3, e4, e5, Nat.zero_add]
    omega
  have hf : FitsMemory (oneFrame c n payload) := by
    refine ⟨by omega, fun f hf => ?_⟩
    simp only [oneFrame, List.mem_singleton] at hf
    subst hf; exact ⟨show 41 < 2 ^ 64 by decide, hn⟩
  have hv : (oneFrame c n payload).header.version ≤ 1 := by show Header.new.version ≤ 1; decide
  have := fromBytes_toBytes_append hf hv []
  rw [List.append_nil] at this
  refine ⟨this, hsz, ?_⟩
  unfold decompressData
  rw [this, ok_bind]
  rfl

/-- C74 refuted for Noop: the recorded count is ignored; whatever it says, the samples of the payload come out. -/
theorem C74_refuted_noop (E : Ext) (n : Nat) (hn : n < 2 ^ 64) : ∃ bs s out, Stream.fromBytes bs = .ok s ∧ (s.frames.map fun f => f.sampleCount).sum = n ∧
    decompressData E bs = .ok out ∧ out.length = 2 := by
  obtain ⟨h1, _, h3⟩ := oneFrame_read E .noop n hn (noop [F64.lit 7, F64.lit 8]) (by decide +kernel)
  have hd : okAnd (noopToData n (noop [F64.lit 7, F64.lit 8])) (fun o => o.length = 2) = true := by
    have : okAnd (noopToData 0 (noop [F64.lit 7, F64.lit 8])) (fun o => o.length = 2) = true := by decide +kernel
    exact this
  obtain ⟨o, o1, o2⟩ := okAnd_iff.1 hd
  refine ⟨_, _, o ++ [], h1, by simp [oneFrame], ?_, by simpa using o2⟩
  rw [h3]; show (noopToData n _ >>= _) = _; rw [o1, ok_bind]

/-- C74: the count is not limited by the size of the file: for every `n` below `2^64` there is a file of at most 29 bytes that uncompresses to `n` samples. -/
theorem C74_small_file_many_samples (E : Ext) (n : Nat) (hn : n < 2 ^ 64) : ∃ bs out, bs.length ≤ 29 ∧ decompressData E bs = .ok out ∧ out.length = n := by
  obtain ⟨_, h2, h3⟩ := oneFrame_read E .constant n hn (Constant.new (F64.lit 7) .u8).enc (by decide +kernel)
  have hl : (Constant.new (F64.lit 7) .u8).enc.length = 3 := by decide +kernel
  have hd : okAnd (unwrapDec Constant.dec (Constant.new (F64.lit 7) .u8).enc) (fun _ => true) = true := by decide +kernel
  obtain ⟨c, c1, _⟩ := okAnd_iff.1 hd
  refine ⟨_, List.replicate n c.constant ++ [], by rw [hl] at h2; exact h2, ?_, by simp⟩
  rw [h3]; show (constantToData n _ >>= _) = _; unfold constantToData; rw [c1, ok_bind, ok_bind]; rfl

example : okAnd (Stream.fromBytes (oneFrame .constant 5 (Constant.new (F64.lit 7) .u8).enc).toBytes) (fun s => (s.frames.map fun f => f.sampleCount).sum = 5) = true := by
  decide +kernel

/-! ### C74, exactly -/

/-- The number of samples the frame's bytes announce: the recorded sample count, except that a Noop frame's is the length in front of its stored values (after
the payload's first byte), which cannot exceed the bytes behind it. -/
def Announces (f : Frame) (n : Nat) : Prop :=
  (f.compressor ≠ .noop ∧ n = f.sampleCount) ∨
  (f.compressor = .noop ∧ ∃ id rest tail, f.data = id :: rest ∧ decU64 rest = some (n, tail) ∧ n ≤ tail.length)

theorem decLE_shorter {k : Nat} {bs r : Bytes} {n : Nat} (h : decLE k bs = some (n, r)) : r.length ≤ bs.length := by
  unfold decLE Dec.map Dec.bind takeBytes Dec.pure at h
  split_ifs at h with hk
  · simp only [Option.some.injEq, Prod.mk.injEq] at h
    rw [← h.2, List.length_drop]; omega

theorem decVar_shorter {t : Nat} {bs r : Bytes} {n : Nat} (h : decVar t bs = some (n, r)) : r.length < bs.length := by
  unfold decVar at h
  cases bs with
  | nil => simp at h
  | cons b bs =>
    dsimp only at h
    split_ifs at h
    · simp only [Option.some.injEq, Prod.mk.injEq] at h; rw [← h.2]; simp
    all_goals (have := decLE_shorter h; simp only [List.length_cons]; omega)

theorem decN_signed {t : Nat} : ∀ (n : Nat) (bs : Bytes) (l : List Int) (r : Bytes), decN (decSigned t) n bs = some (l, r) →
    l.length = n ∧ n + r.length ≤ bs.length := by
  intro n
  induction n with
  | zero => intro bs l r h; simp only [decN, Dec.pure, Option.some.injEq, Prod.mk.injEq] at h; rw [← h.1, ← h.2]; simp
  | succ n ih =>
    intro bs l r h
    simp only [decN, Dec.bind] at h
    cases h1 : decSigned t bs with
    | none => rw [h1] at h; simp at h
    | some p =>
      obtain ⟨i, r1⟩ := p
      rw [h1] at h
      dsimp only at h
      cases h2 : decN (decSigned t) n r1 with
      | none => rw [h2] at h; simp at h
      | some q =>
        obtain ⟨l2, r2⟩ := q
        rw [h2] at h
        simp only [Dec.pure, Option.some.injEq, Prod.mk.injEq] at h
        obtain ⟨k1, k2⟩ := ih r1 l2 r2 h2
        have k3 : r1.length < bs.length := by
          unfold decSigned Dec.map Dec.bind at h1
          cases h3 : decVar t bs with
          | none => rw [h3] at h1; simp at h1
          | some q =>
            rw [h3] at h1
            simp only [Dec.pure, Option.some.injEq, Prod.mk.injEq] at h1
            rw [← h1.2]; exact decVar_shorter (n := q.1) (by rw [h3])
        rw [← h.1, ← h.2]
        simp only [List.length_cons]
        omega

/-- **C74 for one frame, exactly**: it yields as many samples as it announces. -/
theorem C74_frame_exact (E : Ext) (hE : E.Lawful) (f : Frame) (out : List F64) (h : f.decompress E = .ok out) : Announces f out.length := by
  by_cases hc : f.compressor = .noop
  · right
    refine ⟨hc, ?_⟩
    unfold Frame.decompress Compressor.decompress at h
    rw [hc] at h
    dsimp only at h
    unfold noopToData at h
    obtain ⟨c, h1, h⟩ := bind_ok_iff.1 h
    rw [← Except.ok.inj h, List.length_map]
    unfold unwrapDec at h1
    cases h2 : Noop.dec f.data with
    | none => rw [h2] at h1; simp at h1
    | some p =>
      rw [h2] at h1
      obtain ⟨c', r⟩ := p
      have hcc : c' = c := Except.ok.inj h1
      subst hcc
      unfold Noop.dec Dec.bind decU8 at h2
      cases hd : f.data with
      | nil => rw [hd] at h2; simp at h2
      | cons id rest =>
        rw [hd] at h2
        dsimp only at h2
        unfold decVec Dec.bind at h2
        cases h3 : decU64 rest with
        | none => rw [h3] at h2; simp at h2
        | some q =>
          obtain ⟨n, tail⟩ := q
          rw [h3] at h2
          dsimp only at h2
          cases h4 : decN (decSigned 253) n tail with
          | none => rw [h4] at h2; simp at h2
          | some w =>
            rw [h4] at h2
            obtain ⟨k1, k2⟩ := decN_signed n tail w.1 w.2 h4
            simp only [Dec.pure, Option.some.injEq, Prod.mk.injEq] at h2
            rw [← h2.1]
            refine ⟨id, rest, tail, rfl, ?_, ?_⟩ <;> rw [k1]
            · exact h3
            · omega
  · exact Or.inl ⟨hc, C74_frame E hE f hc out h⟩

/-- **C74, exactly.** Whatever bytes are uncompressed, also ones not written by the compressor, if it succeeds the number of samples returned is the sum of
the numbers its frames announce. -/
theorem C74_exact (E : Ext) (hE : E.Lawful) (bs : Bytes) (s : Stream) (hs : Stream.fromBytes bs = .ok s) (out : List F64) (h : decompressData E bs = .ok out) :
    ∃ counts, List.Forall₂ Announces s.frames counts ∧ out.length = counts.sum := by
  unfold decompressData at h
  rw [hs, ok_bind] at h
  unfold Stream.decompress at h
  clear hs
  generalize s.frames = fs at *
  induction fs generalizing out with
  | nil => rw [decompressAll] at h; exact ⟨[], .nil, by rw [← Except.ok.inj h]; rfl⟩
  | cons f fs ih =>
    rw [decompressAll] at h
    obtain ⟨a, h1, h⟩ := bind_ok_iff.1 h
    obtain ⟨b, h2, h⟩ := bind_ok_iff.1 h
    obtain ⟨cs, k1, k2⟩ := ih b h2
    refine ⟨a.length :: cs, .cons (C74_frame_exact E hE f a h1) k1, ?_⟩
    rw [← Except.ok.inj h, List.length_append, List.sum_cons, k2]

example : Announces { frameSize := 41, sampleCount := 9, compressor := .noop, data := noop [F64.lit 7, F64.lit 8] } 2 :=
  Or.inr ⟨rfl, 250, [2, 14, 16], [14, 16], by decide +kernel, by decide, by decide⟩

end Atsc
