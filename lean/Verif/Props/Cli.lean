import Verif.Props.Count
import Verif.Props.Plan
import Verif.Model.Cli
/- C53, C54: the compress and uncompress pipelines of the command line. -/
namespace Atsc
open FP

/-- Arguments the command line parser accepts: error 0..50, level 0..6. -/
def CompArgs.Valid (a : CompArgs) : Prop := a.error ≤ 50 ∧ a.level ≤ 6

/-- The samples that take part in compression: the finite ones, in order. -/
def finiteSamples (data : List F64) : List F64 := data.filter fun x => x.isFinite

/-- In a debug build the frame counter overflows at 256 frames; this many samples are safe (a frame has up to 131072 samples). -/
def FewEnough (p : Profile) (data : List F64) : Prop := p = .debug → data.length < 246 * 131072

/-! ### Lemmas -/

theorem chunkLoop_len_small : ∀ (k fuel len : Nat), 9 ≤ k → k ≤ 17 → len < 2 ^ k → (chunkLoop fuel len).length ≤ k - 8 := by
  intro k
  induction k with
  | zero => intro _ _ h; omega
  | succ k ih =>
    intro fuel len h9 h17 hl
    cases fuel with
    | zero => simp [chunkLoop]
    | succ fuel =>
      simp only [chunkLoop]
      split_ifs with h0 h1 h2
      · simp
      · unfold maxFrameSize at h1
        have : 2 ^ (k + 1) ≤ 2 ^ 17 := Nat.pow_le_pow_right (by decide) h17
        omega
      · simp; omega
      · unfold minFrameSize at h2
        obtain ⟨⟨p1, j, p2⟩, p3⟩ := C34_prev_power_of_two len (by omega)
        have p4 := C34_more_than_half len (by omega)
        have h9' : 9 ≤ k := by
          by_contra hc
          have : k + 1 = 9 := by omega
          rw [this] at hl; omega
        have hj : j ≤ k := by
          by_contra hc
          have : 2 ^ (k + 1) ≤ 2 ^ j := Nat.pow_le_pow_right (by decide) (by omega)
          omega
        have hjk : 2 ^ j ≤ 2 ^ k := Nat.pow_le_pow_right (by decide) hj
        have := ih fuel (len - prevPowerOfTwo len) h9' (by omega) (by omega)
        rw [List.length_cons]; omega

theorem chunkLoop_len : ∀ (fuel len : Nat), (chunkLoop fuel len).length ≤ len / 131072 + 9 := by
  intro fuel
  induction fuel with
  | zero => intro len; simp [chunkLoop]
  | succ fuel ih =>
    intro len
    by_cases h : len < 131072
    · have := chunkLoop_len_small 17 (fuel + 1) len (by decide) (by decide) h
      omega
    · have h1 : len ≥ maxFrameSize := by unfold maxFrameSize; omega
      simp only [chunkLoop]
      rw [if_neg (by omega), if_pos h1]
      have := ih (len - maxFrameSize)
      unfold maxFrameSize at this ⊢
      rw [List.length_cons]
      omega

/-- The calls the frame loop makes. -/
def CompArgs.op (a : CompArgs) (x : Compressor × List F64) : ChunkOp :=
  match a.compressor with
  | .fft | .polynomial | .idw | .auto => .bounded x.2 x.1 a.bound a.level
  | _ => .using x.2 x.1

theorem compressOne_eq (E : Ext) (p : Profile) (a : CompArgs) (s : Stream) (x : Compressor × List F64) :
    compressOne E p a s x = (a.op x).apply E p s := by
  unfold compressOne CompArgs.op
  cases a.compressor <;> rfl

theorem compressLoop_eq (E : Ext) (p : Profile) (a : CompArgs) : ∀ (ex : List (Compressor × List F64)) (s : Stream),
    compressLoop E p a s ex = s.runOps E p (ex.map a.op) := by
  intro ex
  induction ex with
  | nil => intro s; rfl
  | cons x xs ih =>
    intro s
    simp only [compressLoop, List.map_cons, Stream.runOps, compressOne_eq]
    cases (a.op x).apply E p s with
    | error e => rfl
    | ok s' => exact ih s'

theorem bound_nonneg {n : Nat} (h : n ≤ 50) : (FP.zero : F32).le ((FP.ofInt (n : Int) : F32).div (FP.ofInt 100)) = true := by
  have : ∀ n : Fin 51, (FP.zero : F32).le ((FP.ofInt (n.val : Int) : F32).div (FP.ofInt 100)) = true := by decide +kernel
  exact this ⟨n, by omega⟩

theorem op_chunk (a : CompArgs) (x : Compressor × List F64) : (a.op x).chunk = x.2 := by
  unfold CompArgs.op; cases a.compressor <;> rfl

/-- What the compress pipeline does, and the number of frames. -/
theorem pipeline_len (E : Ext) (hE : E.Lawful) (p : Profile) (data : List F64) (a : CompArgs) (ha : a.Valid) (hp : FewEnough p data) :
    ∃ (ex : List (Compressor × List F64)) (s : Stream), Built E p (ex.map a.op) s ∧ compressData E p data a = .ok s.toBytes ∧
      (ex.map Prod.snd).flatten = finiteSamples data ∧
      (∀ x ∈ ex, x.1 = a.compressor.toCompressor ∧ 0 < x.2.length ∧ x.2.length ≤ 131072 ∧ AllFinite x.2) ∧
      (∀ x ∈ ex, (a.op x).Valid) ∧ ex.length ≤ (finiteSamples data).length / 131072 + 9 := by
  obtain ⟨pl, ex, h1, h2, h3, h4, _, _, h7, h8⟩ := C35_partition data a.compressor.toCompressor
  have hfin : ∀ x ∈ ex, AllFinite x.2 := by
    intro x hx y hy
    have : y ∈ (ex.map Prod.snd).flatten := List.mem_flatten.2 ⟨x.2, List.mem_map.2 ⟨x, hx, rfl⟩, hy⟩
    rw [h3] at this
    exact (List.mem_filter.1 this).2
  have hvalid : ∀ x ∈ ex, (a.op x).Valid := by
    intro x hx
    obtain ⟨q1, q2, q3⟩ := h4 x hx
    refine ⟨by rw [op_chunk]; exact List.ne_nil_of_length_pos q2, by rw [op_chunk]; omega, ?_⟩
    · unfold CompArgs.op
      rw [q1]
      cases hc : a.compressor <;> simp only [CompressorType.toCompressor] <;>
        first | exact fun _ => ⟨bound_nonneg ha.1, ha.2⟩ | decide
  have hcount : ex.length ≤ (cleanData data).length / 131072 + 9 := by
    have hpl : pl.chunkSizes = chunkSizes (cleanData data).length := by
      unfold Plan.plan at h1
      obtain ⟨cs, _, h1⟩ := bind_ok_iff.1 h1
      rw [← Except.ok.inj h1]
    have l1 := chunkLoop_len (cleanData data).length (cleanData data).length
    have l4 : ex.length = (chunkSizes (cleanData data).length).length := by rw [← hpl, h8, List.length_map]
    unfold chunkSizes at l4
    rw [l4]
    exact l1
  have hlen : p = .debug → (ex.map a.op).length ≤ 255 := by
    intro hd
    have l2 : (cleanData data).length ≤ data.length := List.length_filter_le _ _
    have l3 := hp hd
    rw [List.length_map]
    omega
  obtain ⟨s, out, b1, b2, b3⟩ := C07_stream_count E hE p (ex.map a.op)
    (fun op ho => by obtain ⟨x, hx, rfl⟩ := List.mem_map.1 ho; exact hvalid x hx) hlen
  refine ⟨ex, s, b1, ?_, h3, fun x hx => ⟨(h4 x hx).1, (h4 x hx).2.1, (h4 x hx).2.2, hfin x hx⟩, hvalid, by rw [C36_clean] at hcount; exact hcount⟩
  unfold compressData
  rw [h1, ok_bind, h2, ok_bind, compressLoop_eq, show Stream.new.runOps E p (ex.map a.op) = .ok s from b1, ok_bind]

/-- What the compress pipeline does. -/
theorem pipeline (E : Ext) (hE : E.Lawful) (p : Profile) (data : List F64) (a : CompArgs) (ha : a.Valid) (hp : FewEnough p data) :
    ∃ (ex : List (Compressor × List F64)) (s : Stream), Built E p (ex.map a.op) s ∧ compressData E p data a = .ok s.toBytes ∧
      (ex.map Prod.snd).flatten = finiteSamples data ∧
      (∀ x ∈ ex, x.1 = a.compressor.toCompressor ∧ 0 < x.2.length ∧ x.2.length ≤ 131072 ∧ AllFinite x.2) ∧
      (∀ x ∈ ex, (a.op x).Valid) := by
  obtain ⟨ex, s, h1, h2, h3, h4, h5, _⟩ := pipeline_len E hE p data a ha hp
  exact ⟨ex, s, h1, h2, h3, h4, h5⟩

theorem pipeline_fits {E : Ext} {p : Profile} {a : CompArgs} {ex : List (Compressor × List F64)} {s : Stream}
    (h : Built E p (ex.map a.op) s) (hex : ∀ x ∈ ex, x.2.length ≤ 131072) (hout : s.toBytes.length < 2 ^ 64) : FitsMemory s := by
  refine built_fits h (fun op ho => ?_) hout
  obtain ⟨x, hx, rfl⟩ := List.mem_map.1 ho
  rw [op_chunk]
  have := hex x hx
  omega

theorem decompressData_ok {E : Ext} {p : Profile} {a : CompArgs} {ex : List (Compressor × List F64)} {s : Stream}
    (h : Built E p (ex.map a.op) s) (hex : ∀ x ∈ ex, x.2.length ≤ 131072) (hout : s.toBytes.length < 2 ^ 64) :
    decompressData E s.toBytes = concatOk (ChunkOp.alone E p) (ex.map a.op) := by
  have hf := pipeline_fits h hex hout
  have hv : s.header.version ≤ 1 := by rw [(built_ok h).1]; decide
  have := fromBytes_toBytes_append hf hv []
  rw [List.append_nil] at this
  unfold decompressData
  rw [this, ok_bind, decompress_built h]

theorem concat_forall2 {E : Ext} {p : Profile} {a : CompArgs} (R : F64 → F64 → Prop) : ∀ (ex : List (Compressor × List F64)),
    (∀ x ∈ ex, ∃ out, (a.op x).alone E p = .ok out ∧ List.Forall₂ R out x.2) →
    ∃ out, concatOk (ChunkOp.alone E p) (ex.map a.op) = .ok out ∧ List.Forall₂ R out (ex.map Prod.snd).flatten := by
  intro ex
  induction ex with
  | nil => exact fun _ => ⟨[], rfl, .nil⟩
  | cons x xs ih =>
    intro h
    obtain ⟨o1, h1, h2⟩ := h x (by simp)
    obtain ⟨o2, h3, h4⟩ := ih fun y hy => h y (by simp [hy])
    exact ⟨o1 ++ o2, by simp only [List.map_cons, concatOk, h1, h3], List.rel_append h2 h4⟩

/-! ### C54 -/

/-- C54: for every input vector (even with NaN and infinities) and every accepted argument, compressing succeeds, and uncompressing the result
yields one sample per finite input sample. The only hypothesis on sizes is that the compressed bytes fit in memory. -/
theorem C54_end_to_end (E : Ext) (hE : E.Lawful) (p : Profile) (data : List F64) (a : CompArgs) (ha : a.Valid) (hp : FewEnough p data) :
    ∃ bs, compressData E p data a = .ok bs ∧
      (bs.length < 2 ^ 64 → ∃ out, decompressData E bs = .ok out ∧ out.length = (finiteSamples data).length) := by
  obtain ⟨ex, s, h1, h2, h3, h4, h5⟩ := pipeline E hE p data a ha hp
  refine ⟨_, h2, fun hl => ?_⟩
  rw [decompressData_ok h1 (fun x hx => (h4 x hx).2.2.1) hl, ← h3]
  obtain ⟨out, o1, o2⟩ := concat_forall2 (E := E) (p := p) (a := a) (fun _ _ => True) ex (fun x hx => by
    obtain ⟨out, q1, q2⟩ := C07_chunk_count E hE p (a.op x) (h5 x hx)
    rw [op_chunk] at q2
    exact ⟨out, q1, List.forall₂_iff_get.2 ⟨q2, fun _ _ _ => trivial⟩⟩)
  exact ⟨out, o1, o2.length_eq⟩

/-- C54, RLE: if moreover the finite samples are zero or of magnitude in `[2^-64, 2^63)`, they all come back with their values, in order. -/
theorem C54_rle_equal (E : Ext) (hE : E.Lawful) (p : Profile) (data : List F64) (a : CompArgs) (ha : a.Valid) (hp : FewEnough p data)
    (hc : a.compressor = .rle) (hr : ∀ x ∈ data, x.isFinite = true → InRange x) :
    ∃ bs, compressData E p data a = .ok bs ∧
      (bs.length < 2 ^ 64 → ∃ out, decompressData E bs = .ok out ∧ SameValues out (finiteSamples data)) := by
  obtain ⟨ex, s, h1, h2, h3, h4, h5⟩ := pipeline E hE p data a ha hp
  refine ⟨_, h2, fun hl => ?_⟩
  rw [decompressData_ok h1 (fun x hx => (h4 x hx).2.2.1) hl, ← h3]
  obtain ⟨out, o1, o2⟩ := concat_forall2 (E := E) (p := p) (a := a) (fun o x => o.val = x.val ∧ o.isFinite = true ∧ x.isFinite = true) ex (fun x hx => by
    obtain ⟨q1, q2, q3, q4⟩ := h4 x hx
    have hin : ∀ y ∈ x.2, InRange y := by
      intro y hy
      have : y ∈ (ex.map Prod.snd).flatten := List.mem_flatten.2 ⟨x.2, List.mem_map.2 ⟨x, hx, rfl⟩, hy⟩
      rw [h3] at this
      exact hr y (List.mem_filter.1 this).1 (q4 y hy)
    obtain ⟨bs, out, w1, w2, w3⟩ := C10_rle_lossless E x.2 (List.ne_nil_of_length_pos q2) (by omega) q4 hin
    have hop : a.op x = .using x.2 .rle := by unfold CompArgs.op; rw [q1, hc]; rfl
    refine ⟨out, ?_, List.forall₂_iff_get.2 ⟨w3.1, fun i i1 i2 => w3.2 i i1 i2⟩⟩
    have hf : (a.op x).frame E = .ok { Frame.new (some .rle) with sampleCount := x.2.length, data := bs } := by
      rw [hop]
      show (Compressor.rle.compress E x.2 >>= _) = _
      rw [w1]; rfl
    rw [alone_eq hf]; exact w2)
  obtain ⟨l, hg⟩ := List.forall₂_iff_get.1 o2
  exact ⟨out, o1, l, fun i i1 i2 => hg i i1 i2⟩

/-- C54, Noop: every finite sample comes back as its nearest integer (limited to the 64-bit range), in order. -/
theorem C54_noop_nearest (E : Ext) (hE : E.Lawful) (p : Profile) (data : List F64) (a : CompArgs) (ha : a.Valid) (hp : FewEnough p data)
    (hc : a.compressor = .noop) :
    ∃ bs, compressData E p data a = .ok bs ∧
      (bs.length < 2 ^ 64 → ∃ out, decompressData E bs = .ok out ∧
        List.Forall₂ (fun (o x : F64) => o.isFinite = true ∧ o.val = (noopValue x.val : ℚ)) out (finiteSamples data)) := by
  obtain ⟨ex, s, h1, h2, h3, h4, h5⟩ := pipeline E hE p data a ha hp
  refine ⟨_, h2, fun hl => ?_⟩
  rw [decompressData_ok h1 (fun x hx => (h4 x hx).2.2.1) hl, ← h3]
  exact concat_forall2 (E := E) (p := p) (a := a) (fun (o x : F64) => o.isFinite = true ∧ o.val = (noopValue x.val : ℚ)) ex (fun x hx => by
    obtain ⟨q1, q2, q3, q4⟩ := h4 x hx
    obtain ⟨bs, out, w1, w2, w3, w4⟩ := C13_noop_nearest E x.2 (List.ne_nil_of_length_pos q2) (by omega)
    have hop : a.op x = .using x.2 .noop := by unfold CompArgs.op; rw [q1, hc]; rfl
    refine ⟨out, ?_, List.forall₂_iff_get.2 ⟨w3, fun i i1 i2 => ?_⟩⟩
    · have hf : (a.op x).frame E = .ok { Frame.new (some .noop) with sampleCount := x.2.length, data := bs } := by
        rw [hop]
        show (Compressor.noop.compress E x.2 >>= _) = _
        rw [w1]; rfl
      rw [alone_eq hf]; exact w2
    · obtain ⟨k1, k2, _⟩ := w4 i i1 i2
      exact ⟨k1, k2 (q4 _ (List.getElem_mem i2))⟩)

/-- C54: what the default compressor (Auto) and the others store, chunk by chunk: the output is the concatenation of what each planned chunk
alone decompresses to, the chunks being the finite samples cut in order. -/
theorem C54_chunkwise (E : Ext) (hE : E.Lawful) (p : Profile) (data : List F64) (a : CompArgs) (ha : a.Valid) (hp : FewEnough p data) :
    ∃ bs, compressData E p data a = .ok bs ∧ ∃ ops : List ChunkOp, (ops.map ChunkOp.chunk).flatten = finiteSamples data ∧
      (bs.length < 2 ^ 64 → decompressData E bs = concatOk (ChunkOp.alone E p) ops) := by
  obtain ⟨ex, s, h1, h2, h3, h4, h5⟩ := pipeline E hE p data a ha hp
  refine ⟨_, h2, ex.map a.op, ?_, fun hl => decompressData_ok h1 (fun x hx => (h4 x hx).2.2.1) hl⟩
  rw [← h3, List.map_map]
  congr 1
  exact List.map_congr_left fun x _ => op_chunk a x

/-- Concrete end-to-end run: NaN is dropped, the finite samples come back. -/
example : okAnd (compressData Ext.dummy .debug [F64.lit 5, FP.nan, F64.lit 5, F64.lit (-7)] { compressor := .rle, error := 3, level := 0 } >>=
    decompressData Ext.dummy) (fun out => out = [F64.lit 5, F64.lit 5, F64.lit (-7)]) = true := by decide +kernel

/-! ### C53 -/

/-- C53: if the input has a finite sample, the compressed bytes pass the reader's format check unchanged and decompress.
Inputs without any finite sample: `C53_refuted_empty`, `C53_exact`. -/
theorem C53_accepted (E : Ext) (hE : E.Lawful) (p : Profile) (data : List F64) (a : CompArgs) (ha : a.Valid) (hp : FewEnough p data)
    (x : F64) (hx : x ∈ data) (hf : x.isFinite = true) :
    ∃ bs, compressData E p data a = .ok bs ∧ broRead bs = .bytes bs ∧ (bs.length < 2 ^ 64 → ∃ out, decompressData E bs = .ok out) := by
  obtain ⟨ex, s, h1, h2, h3, h4, h5⟩ := pipeline E hE p data a ha hp
  obtain ⟨bs, c1, c2⟩ := C54_end_to_end E hE p data a ha hp
  rw [h2] at c1; obtain rfl := Except.ok.inj c1
  refine ⟨_, h2, ?_, fun hl => ?_⟩
  · have hne : ex ≠ [] := by
      rintro rfl
      have : x ∈ finiteSamples data := List.mem_filter.2 ⟨hx, hf⟩
      rw [← h3] at this; simp at this
    have hlen : 12 ≤ s.toBytes.length := by
      obtain ⟨-, -, -, fs, k1, k2⟩ := built_ok h1
      have hfs : fs ≠ [] := by
        rintro rfl
        have := k2.length_eq
        simp at this; exact hne this
      obtain ⟨f, fs', rfl⟩ := List.exists_cons_of_ne_nil hfs
      rw [toBytes_length, k1, List.map_cons, List.map_cons, List.flatten_cons]
      have e1 := encVar_length_pos f.close.frameSize
      have e2 := encVar_length_pos f.close.sampleCount
      have e3 := encVec_len_pos encU8 f.close.data
      have e4 := encVar_length_pos (f.close :: List.map Frame.close fs').length
      simp only [Frame.enc, List.length_append]
      omega
    unfold broRead
    rw [if_neg (by omega), if_pos]
    unfold Stream.toBytes Header.toBytes
    rfl
  · obtain ⟨out, o, _⟩ := c2 hl
    exact ⟨out, o⟩

/-- C53 refuted: an input without a finite sample (empty, or only NaN and infinities) is compressed to 10 bytes, which the reader rejects
as truncated. -/
theorem C53_refuted_empty (E : Ext) (p : Profile) (data : List F64) (a : CompArgs) (h : ∀ x ∈ data, x.isFinite = false) :
    ∃ bs, compressData E p data a = .ok bs ∧ bs.length = 10 ∧ broRead bs = .eof := by
  have hcl : cleanData data = [] := by
    rw [C36_clean]
    exact List.filter_eq_nil_iff.2 fun x hx => by simp [h x hx]
  refine ⟨Stream.new.toBytes, ?_, by decide, by decide⟩
  unfold compressData Plan.plan
  rw [hcl]
  rfl

example : okAnd (compressData Ext.dummy .debug [FP.nan] { compressor := .auto, error := 3, level := 0 })
    (fun bs => bs = [66, 82, 82, 79, 1, 0, 0, 0, 0, 0]) = true := by decide +kernel

end Atsc
