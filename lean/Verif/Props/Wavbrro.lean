import Verif.Lemmas.Wavbrro
import Verif.Spec.Dummy
/- C37, C38, C39, C59, C60: the WavBrro container. -/
namespace Atsc
open WavBrro

/-! ### C37 -/

/-- **C37.** After any sequence of `add_sample` calls on a new container, `get_samples` returns exactly the samples added, in order; the
count is their number (modulo 2^32) and the chunks have the documented shape. -/
theorem C37_add_get (p : Profile) (d : List F64) (w : WavBrro) (h : addAll p .new d = .ok w) :
    w.getSamples = d ∧ w.sampleCount = d.length % 2 ^ 32 ∧ w.bitdepth = 5 ∧ WellChunked w.chunks := by
  have key : w = fromSlice d := by
    by_cases hl : p = .release ∨ d.length < 4294967296
    · have := addAll_fromSlice p d [] (by simpa using hl)
      rw [fromSlice_nil, List.nil_append, h] at this
      exact Except.ok.inj this
    · exfalso
      have hp : p = .debug := by cases p <;> simp_all
      subst hp
      have hd : d = d.take 4294967295 ++ d.drop 4294967295 := (List.take_append_drop _ _).symm
      have hlen : ¬ d.length < 4294967296 := fun hc => hl (.inr hc)
      have h1 := addAll_fromSlice .debug (d.take 4294967295) [] (.inr (by simp only [List.length_nil, List.length_take]; omega))
      have happ : ∀ (a b : List F64) (u v : WavBrro), addAll .debug u a = .ok v → addAll .debug u (a ++ b) = addAll .debug v b := by
        intro a
        induction a with
        | nil => intro b u v hu; rw [addAll] at hu; rw [← Except.ok.inj hu]; rfl
        | cons x a ih =>
          intro b u v hu
          rw [addAll] at hu
          cases hx : u.addSample .debug x with
          | error e => rw [hx] at hu; cases hu
          | ok u' =>
            rw [hx] at hu
            rw [List.cons_append, addAll, hx]
            exact ih b u' v hu
      rw [hd, happ _ _ _ _ (by rw [← fromSlice_nil]; exact h1), List.nil_append] at h
      cases hr : d.drop 4294967295 with
      | nil =>
        have := congrArg List.length hr
        simp only [List.length_drop, List.length_nil] at this; omega
      | cons x r =>
        rw [hr, addAll] at h
        obtain ⟨e, he⟩ := addSample_overflow (d.take 4294967295) x (by simp only [List.length_take]; omega)
        rw [he] at h
        cases h
  subst key
  exact ⟨chunksOf_flatten (by decide) d, rfl, rfl, chunksOf_shape d⟩

/-- The calls never panic in a release build, nor in a debug build before the 2^32nd sample. -/
theorem C37_total (p : Profile) (d : List F64) (h : p = .release ∨ d.length < 2 ^ 32) : ∃ w, addAll p .new d = .ok w := by
  have := addAll_fromSlice p d [] (h.imp id (by simp only [List.length_nil]; omega))
  rw [fromSlice_nil] at this
  exact ⟨_, this⟩

/-- The 2^32nd sample panics in a debug build. -/
theorem C37_debug_limit (d : List F64) (x : F64) (h : d.length = 2 ^ 32 - 1) (w : WavBrro) (hw : addAll .debug .new d = .ok w) :
    ∃ e, w.addSample .debug x = .error e := by
  have := addAll_fromSlice .debug d [] (.inr (by simp only [List.length_nil]; omega))
  rw [fromSlice_nil, hw, List.nil_append] at this
  rw [Except.ok.inj this]
  exact addSample_overflow d x (by omega)

example : okAnd (addAll .debug .new (List.replicate 5 (FP.ofInt 3))) fun w => w.sampleCount == 5 && w.chunks.length == 1 := by decide +kernel

/-! ### C38 -/

/-- **C38.** Building the container from a slice gives the same container as adding its samples one by one. -/
theorem C38_bulk (p : Profile) (d : List F64) (h : p = .release ∨ d.length < 2 ^ 32) : addAll p .new d = .ok (fromSlice d) := by
  have := addAll_fromSlice p d [] (h.imp id (by simp only [List.length_nil]; omega))
  rw [fromSlice_nil] at this
  exact this

/-- Hence `to_file_with_data` and `to_file` write the same file. -/
theorem C38_same_file (p : Profile) (d : List F64) (w : WavBrro) (hw : addAll p .new d = .ok w) (h : p = .release ∨ d.length < 2 ^ 32) :
    toFileWithData d = w.toFile := by
  rw [C38_bulk p d h] at hw
  rw [← Except.ok.inj hw]; rfl

example : addAll .debug .new [FP.ofInt 3] = .ok (fromSlice [FP.ofInt 3]) := C38_bulk _ _ (.inr (by decide))

/-! ### C39 -/

theorem fromFile_whole (addr : Nat) (bs : Bytes) (hb : bs ≠ []) :
    fromFile addr (wholeFile bs) = (do let w ← fromBytes addr bs; .ok (.samples w.getSamples)) := by
  have hf : wholeFile bs = header ++ bs := by
    unfold wholeFile writtenFile
    have : 0 < bs.length := List.length_pos_iff.2 hb
    rw [if_neg (by rintro (h | h); omega; exact hb h), List.take_length]
    rfl
  have hl : header.length = 12 := rfl
  unfold fromFile
  rw [hf, if_neg (by rw [List.length_append]; omega)]
  have h1 : sliceAt (header ++ bs) 0 4 = wbro := by unfold sliceAt; rw [List.drop_zero, List.take_append_of_le_length (by omega)]; rfl
  have h2 : sliceAt (header ++ bs) 8 4 = wbro := by
    unfold sliceAt
    rw [List.drop_append_of_le_length (by omega), List.take_append_of_le_length (by decide)]; rfl
  rw [if_neg (by simp [h1, h2])]
  have h3 : (header ++ bs).drop 12 = bs := by rw [← hl, List.drop_left]
  rw [h3]

theorem fromBytes_nil {addr : Nat} : fromBytes addr [] = .error .unwrap := rfl

/-- **C39.** A file written by `to_file_with_data` reads back as exactly the samples written (bit for bit), for up to 2^28 samples.
`addr` is the address of the reader's buffer: the reader needs it to be a multiple of 8, which the code leaves to the allocator. -/
theorem C39_round_trip (d : List F64) (h : d.length ≤ 2 ^ 28) (addr : Nat) (ha : 8 ∣ addr) :
    ∃ f, toFileWithData d = .ok f ∧ fromFile addr f = .ok (.samples d) := by
  obtain ⟨bs, hbs⟩ := toBytes_fits (d := d) (by omega)
  refine ⟨wholeFile bs, ?_, ?_⟩
  · unfold toFileWithData toFile
    rw [hbs]; rfl
  · have hr := fromBytes_toBytes hbs (addr := addr) (by show d.length % 4294967296 < 4294967296; omega) (by show 5 < 256; decide)
      (fun c hc => by have := mem_chunksOf (d := d) hc; omega)
      (by
        have h1 := chunks_count_le (cs := chunksOf maxChunk d) (fun c hc => (mem_chunksOf hc).1)
        rw [chunksOf_flatten (by decide)] at h1
        show (chunksOf maxChunk d).length < _
        omega) (by omega)
    have hne : bs ≠ [] := by intro e; rw [e, fromBytes_nil] at hr; cases hr
    rw [fromFile_whole addr bs hne, hr]
    show Except.ok (WbroRead.samples (chunksOf maxChunk d).flatten) = _
    rw [chunksOf_flatten (by decide)]

/-- The same for a container filled sample by sample. -/
theorem C39_round_trip_added (p : Profile) (d : List F64) (h : d.length ≤ 2 ^ 28) (w : WavBrro) (hw : addAll p .new d = .ok w)
    (addr : Nat) (ha : 8 ∣ addr) : ∃ f, w.toFile = .ok f ∧ fromFile addr f = .ok (.samples d) := by
  rw [← C38_same_file p d w hw (.inr (by omega))]
  exact C39_round_trip d h addr ha

/-- With more than 2^28 samples writing panics: the 32-bit pointer to the first sample does not fit. -/
theorem C39_limit (d : List F64) (h : 2 ^ 28 < d.length) : ∃ e, toFileWithData d = .error e := by
  unfold toFileWithData toFile
  rw [toBytes_panics (by omega)]
  exact ⟨_, rfl⟩

/-- A file of fewer than 12 bytes is an I/O error and one without both marks is a format error, whatever else it holds. -/
theorem C39_rejects (addr : Nat) (f : Bytes) :
    (f.length < 12 → fromFile addr f = .ok .ioError) ∧
    (12 ≤ f.length → ¬ ((f.take 4) = [87, 66, 82, 79] ∧ ((f.drop 8).take 4) = [87, 66, 82, 79]) → fromFile addr f = .ok .formatError) := by
  refine ⟨fun h => by unfold fromFile; rw [if_pos h], fun h hm => ?_⟩
  unfold fromFile
  rw [if_neg (by omega), if_pos]
  intro hc
  apply hm
  unfold sliceAt at hc
  simpa [wbro] using hc

/-- Only a file with both marks can be read. -/
theorem C39_accepts_only_marked (addr : Nat) (f : Bytes) (d : List F64) (h : fromFile addr f = .ok (.samples d)) :
    12 ≤ f.length ∧ f.take 4 = [87, 66, 82, 79] ∧ (f.drop 8).take 4 = [87, 66, 82, 79] := by
  by_cases h1 : f.length < 12
  · rw [(C39_rejects addr f).1 h1] at h; cases h
  · by_cases h2 : (f.take 4) = [87, 66, 82, 79] ∧ ((f.drop 8).take 4) = [87, 66, 82, 79]
    · exact ⟨by omega, h2⟩
    · rw [(C39_rejects addr f).2 (by omega) h2] at h; cases h

example : okAnd (toFileWithData [FP.ofInt 1]) fun f => okAnd (fromFile 16 f) fun r => decide (r = .samples [FP.ofInt 1]) := by decide +kernel
example : okAnd (toFileWithData []) fun f => okAnd (fromFile 16 f) fun r => decide (r = .samples []) := by decide +kernel

/-! ### C59: incomplete files -/

/-- A crash between the two writes leaves the bare header, and reading it panics (no error is returned). -/
theorem C59_header_only (content : Bytes) (addr : Nat) : fromFile addr (writtenFile 12 0 content) = .error .unwrap := by
  unfold writtenFile
  rw [if_pos (.inl rfl)]
  rfl

/-- **C59 is false**: a file whose writing was cut short can be read without any error as a different (empty) series.  For every series with two
consecutive positive zeros, the file cut right after them reads as a series of no samples. -/
theorem C59_refuted_truncation (a b : List F64) (addr : Nat) (ha : 4 ∣ addr) (bs : Bytes)
    (h : (fromSlice (a ++ [FP.zero, FP.zero] ++ b)).toBytes = .ok bs) :
    fromFile addr (writtenFile 12 (8 * (a.length + 2)) bs) = .ok (.samples []) := by
  have hz : ([FP.zero, FP.zero] : List F64).flatMap encF64 = List.replicate 16 0 := by decide +kernel
  obtain ⟨tail, htail⟩ : ∃ tail, bs = a.flatMap encF64 ++ List.replicate 16 0 ++ tail := by
    unfold toBytes fromSlice at h
    simp only [bind, Except.bind, chunksOf_flatten (n := maxChunk) (by decide)] at h
    split at h
    · cases h
    · split at h
      · cases h
      · rw [← Except.ok.inj h]
        simp only [List.flatMap_append, hz, List.append_assoc]
        exact ⟨_, rfl⟩
  have hlen : (a.flatMap encF64 ++ List.replicate 16 0).length = 8 * (a.length + 2) := by
    rw [List.length_append, items_length, List.length_replicate]; omega
  have hfile : writtenFile 12 (8 * (a.length + 2)) bs = header ++ (a.flatMap encF64 ++ List.replicate 16 0) := by
    unfold writtenFile
    rw [if_neg, htail, ← hlen, List.take_left]
    · rfl
    · rintro (h | h)
      · omega
      · rw [htail] at h
        have := congrArg List.length h
        simp at this
  have hw : header ++ (a.flatMap encF64 ++ List.replicate 16 0) = wholeFile (a.flatMap encF64 ++ List.replicate 16 0) := by
    unfold wholeFile writtenFile
    rw [if_neg, List.take_length]
    · rfl
    · rintro (h | h)
      · omega
      · have := congrArg List.length h
        simp at this
  rw [hfile, hw, fromFile_whole _ _ (by intro h; have := congrArg List.length h; simp at this)]
  generalize hA : a.flatMap encF64 = A
  have hAl : A.length = 8 * a.length := by rw [← hA, items_length]
  have hs0 : sliceAt (A ++ List.replicate 16 0) A.length (4 + (4 + 8)) = List.replicate 4 0 ++ (List.replicate 4 0 ++ List.replicate 8 0) := by
    unfold sliceAt; rw [List.drop_left]; rfl
  obtain ⟨s1, s2⟩ := sliceAt_split hs0 rfl rfl
  obtain ⟨s3, -⟩ := sliceAt_split s2 rfl rfl
  have hfb : ∃ w, fromBytes addr (A ++ List.replicate 16 0) = .ok w ∧ w.chunks = [] := by
    unfold fromBytes
    have hl : (A ++ List.replicate 16 (0 : UInt8)).length = A.length + 16 := by simp
    rw [hl, if_neg (by omega)]
    simp only [Nat.add_sub_cancel]
    rw [if_neg (by omega)]
    have hc : checkVec (A ++ List.replicate 16 0) addr A.length 0 A.length 8 4 = some (A.length, 0) := by
      unfold checkVec i32At u32At
      rw [s1, s3]
      simp only [show ofLE (List.replicate 4 0) = 0 from rfl, if_pos (show (0 : Nat) < 2147483648 by decide)]
      rw [if_pos (by omega)]
      simp
    rw [hc]
    exact ⟨_, rfl, rfl⟩
  obtain ⟨w, hw1, hw2⟩ := hfb
  rw [hw1]
  show Except.ok (WbroRead.samples w.chunks.flatten) = _
  rw [hw2]; rfl

/-- A short write is not reported: the writer has no failure for it, and the file it leaves is a proper prefix of the right one. -/
theorem C59_short_write_silent (content : Bytes) (k : Nat) (hk : 0 < k) (h : k < content.length) :
    writtenFile 12 k content = (wholeFile content).take (12 + k) ∧ writtenFile 12 k content ≠ wholeFile content := by
  have hne : content ≠ [] := by intro e; subst e; simp at h
  unfold wholeFile writtenFile
  rw [if_neg (by rintro (h | h); omega; exact hne h), if_neg (by rintro (h | h); omega; exact hne h)]
  have hl : (header.take 12 ++ List.replicate (12 - 12) 0).length = 12 := rfl
  generalize header.take 12 ++ List.replicate (12 - 12) 0 = H at hl
  rw [List.take_length, List.take_append, hl, List.take_of_length_le (l := H) (by omega), Nat.add_sub_cancel_left]
  refine ⟨rfl, fun e => ?_⟩
  have := congrArg List.length e
  simp only [List.length_append, List.length_take] at this
  omega

example : okAnd ((fromSlice [FP.ofInt 7, FP.zero, FP.zero, FP.ofInt 8]).toBytes) (fun bs =>
    okAnd (fromFile 16 (writtenFile 12 24 bs)) fun r => decide (r = .samples [])) := by decide +kernel

/-! ### C60: reading cannot expand a file -/

theorem itemsAt_length (bs : Bytes) : ∀ (n pos : Nat), (itemsAt bs pos n).length = n
  | 0, _ => rfl
  | n + 1, pos => by rw [itemsAt, List.length_cons, itemsAt_length bs n]

theorem readInner_bound {bs : Bytes} {addr hi : Nat} : ∀ {n pos lo : Nat} {cs : List (List F64)}, readInner bs addr hi n pos lo = some cs →
    lo ≤ hi → lo + 8 * cs.flatten.length ≤ hi ∧ cs.length = n
  | 0, _, _, _, h, hl => by rw [readInner] at h; rw [← Option.some.inj h]; simpa using hl
  | n + 1, pos, lo, cs, h, hl => by
    rw [readInner] at h
    cases h1 : checkVec bs addr pos lo hi 8 8 with
    | none => rw [h1] at h; cases h
    | some tk =>
      obtain ⟨t, k⟩ := tk
      rw [h1] at h
      simp only at h
      cases h2 : readInner bs addr hi n (pos + 8) (t + 8 * k) with
      | none => rw [h2] at h; cases h
      | some cs' =>
        rw [h2] at h
        rw [← Option.some.inj h]
        unfold checkVec at h1
        simp only at h1
        split at h1
        · rename_i hc
          have he := Option.some.inj h1
          have e1 : t = _ := (congrArg Prod.fst he).symm
          have e2 : k = _ := (congrArg Prod.snd he).symm
          simp only at e1 e2
          have := readInner_bound h2 (by rw [e1, e2]; omega)
          rw [List.flatten_cons, List.length_append, itemsAt_length, List.length_cons]
          omega
        · cases h1

/-- **C60.** Whatever the bytes, a WBRO file that can be read gives no more samples than its content has room for, 8 bytes each. -/
theorem C60_no_expansion (addr : Nat) (f : Bytes) (d : List F64) (h : fromFile addr f = .ok (.samples d)) : 12 + 8 * d.length + 16 ≤ f.length := by
  have hm := C39_accepts_only_marked addr f d h
  unfold fromFile at h
  rw [if_neg (by omega)] at h
  split at h
  · cases h
  · cases hb : fromBytes addr (f.drop 12) with
    | error e => rw [hb] at h; cases h
    | ok w =>
      rw [hb] at h
      have hd : w.getSamples = d := by
        have := Except.ok.inj h
        exact WbroRead.samples.inj this
      rw [← hd]
      generalize hbs : f.drop 12 = bs at hb
      have hbl : bs.length = f.length - 12 := by rw [← hbs, List.length_drop]
      unfold fromBytes at hb
      split at hb
      · cases hb
      · simp only at hb
        split at hb
        · cases hb
        · cases hc : checkVec bs addr (bs.length - 16) 0 (bs.length - 16) 8 4 with
          | none => rw [hc] at hb; cases hb
          | some tk =>
            obtain ⟨t, k⟩ := tk
            rw [hc] at hb
            simp only at hb
            cases hr : readInner bs addr t k t 0 with
            | none => rw [hr] at hb; cases hb
            | some cs =>
              rw [hr] at hb
              have hb' := readInner_bound hr (by omega)
              have ht : t ≤ bs.length - 16 := by
                unfold checkVec at hc
                simp only at hc
                split at hc
                · have := (congrArg Prod.fst (Option.some.inj hc)).symm
                  simp only at this
                  omega
                · cases hc
              rw [← Except.ok.inj hb]
              show 12 + 8 * cs.flatten.length + 16 ≤ f.length
              omega

example : okAnd (toFileWithData [FP.ofInt 1, FP.ofInt 2]) fun f => okAnd (fromFile 16 f) fun r => decide (r = .samples [FP.ofInt 1, FP.ofInt 2]) := by
  decide +kernel

end Atsc
