import Verif.Props.Auto
/- C07: decompression restores the number of samples. -/
namespace Atsc
open FP

/-- A call a user may make: a non-empty chunk of fewer than `2^62` samples, whatever they are (NaN and infinities included); Auto only through the bounded entry point, with a
non-negative bound and a level 0..6. -/
def ChunkOp.Valid (op : ChunkOp) : Prop :=
  op.chunk ≠ [] ∧ op.chunk.length < 2 ^ 62 ∧
  match op with
  | .plain _ => True
  | .using _ c => c ≠ .auto
  | .bounded _ c e speed => c = .auto → (FP.zero : F32).le e = true ∧ speed ≤ 6

theorem poly_frame_count (E : Ext) {data : List F64} (hne : data ≠ []) (hlen : data.length < 2 ^ 64) {st : DataStats} (ty : PolyType)
    (c : Poly) (h : c = Poly.start st ty ∨ ∃ k, 1 ≤ k ∧ k ≤ 133 ∧ c = (Poly.start st ty).stored data k) :
    ∃ out, ty.comp.decompress E data.length c.enc = .ok out ∧ out.length = data.length := by
  have key : ∀ c : Poly, c.pointStep ≠ 0 → ∃ out, c.toData E data.length = .ok out ∧ out.length = data.length := by
    intro c h3
    unfold Poly.toData
    split_ifs with hc
    · exact ⟨_, rfl, List.length_replicate⟩
    · obtain ⟨out, o1, o2, _⟩ := interpolate_ok E c data.length (List.length_pos_of_ne_nil hne) h3
      exact ⟨out, o1, o2⟩
  rw [comp_decompress]
  rcases h with rfl | ⟨k, h1, h2, rfl⟩
  · rw [polyToData_enc E _ (Poly.start st ty) (Nat.two_pow_pos 64)]
    exact key _ (by show 1 % 256 ≠ 0; decide)
  · have hn1 : 1 ≤ data.length := List.length_pos_of_ne_nil hne
    rw [polyToData_enc E _ _ (lt_of_le_of_lt (stored_length_le hn1 h1 _) hlen)]
    refine key _ ?_
    show k % 256 % 256 ≠ 0
    omega

theorem fft_frame_count (E : Ext) (hE : E.Lawful) (data : List F64) (st : DataStats) (fs : List FreqPoint)
    (hok : ({ Fft.start st with frequencies := fs } : Fft).Ok) (hpos : ∀ f ∈ fs, f.pos < paddedLen data.length) :
    ∃ out, Compressor.fft.decompress E data.length ({ Fft.start st with frequencies := fs } : Fft).enc = .ok out ∧
      out.length = data.length := by
  set c : Fft := { Fft.start st with frequencies := fs } with hcdef
  have hdec : Compressor.fft.decompress E data.length c.enc = c.toData E data.length := by
    simp only [Compressor.decompress, fftToData]
    rw [fft_unwrap c hok, ok_bind]
    rfl
  rw [hdec]
  cases hc : c.maxValue.feq c.minValue with
  | true =>
    unfold Fft.toData
    rw [if_pos hc]
    exact ⟨_, rfl, List.length_replicate⟩
  | false =>
    rw [toData_window E hE c _ hc]
    obtain ⟨out, h1, h2, _⟩ := reconstruct_ok hE c (paddedLen data.length) hpos
    rw [h1, ok_bind]
    refine ⟨_, rfl, ?_⟩
    rw [List.length_take, List.length_drop, h2]
    have := nextSize_gt data.length
    unfold padBefore paddedLen; split_ifs <;> omega

theorem poly_count_plain (E : Ext) (ty : PolyType) (data : List F64) (hne : data ≠ []) (hlen : data.length < 2 ^ 64) :
    ∃ bs out, ty.comp.compress E data = .ok bs ∧ ty.comp.decompress E data.length bs = .ok out ∧ out.length = data.length := by
  obtain ⟨st, hst⟩ := stats_ok hne
  rw [comp_compress E ty data hne]
  obtain ⟨c, h1, h2⟩ := poly_plain_cases data hne ty st hst
  obtain ⟨out, h3⟩ := poly_frame_count E hne hlen (st := st) ty c (by
    rcases h2 with ⟨_, h⟩ | ⟨_, h⟩
    · exact Or.inl h
    · exact Or.inr h)
  exact ⟨_, out, h1, h3⟩

theorem poly_count_bounded (E : Ext) (ty : PolyType) (data : List F64) (hne : data ≠ []) (hlen : data.length < 2 ^ 64) (e : F64) :
    ∃ bs out, ty.comp.compressBounded E data e = .ok bs ∧ ty.comp.decompress E data.length bs = .ok out ∧ out.length = data.length := by
  obtain ⟨st, hst⟩ := stats_ok hne
  rw [(comp_bounded E ty data hne e).2]
  obtain ⟨c, r, h1, h2, h3⟩ := poly_bounded_cases E data hne ty e st hst
  obtain ⟨out, h4⟩ := poly_frame_count E hne hlen (st := st) ty c (by
    rcases h3 with ⟨_, h, _⟩ | ⟨_, _, h⟩ | ⟨_, _, s, hs, rfl, _⟩
    · exact Or.inl h
    · exact Or.inl h
    · exact Or.inr (polyDone_stored hs))
  exact ⟨_, out, by rw [h1]; rfl, by rw [h2]; exact h4.1, h4.2⟩

theorem fft_count_plain (E : Ext) (hE : E.Lawful) (data : List F64) (hne : data ≠ []) (hlen : data.length < 2 ^ 62) :
    ∃ bs out, Compressor.fft.compress E data = .ok bs ∧ Compressor.fft.decompress E data.length bs = .ok out ∧
      out.length = data.length := by
  have h1 : 1 ≤ data.length := List.length_pos_of_ne_nil hne
  obtain ⟨st, hst⟩ := stats_ok hne
  obtain ⟨c, h2, ⟨_, rfl⟩ | ⟨_, fs, h4, rfl⟩⟩ := fft_plain_cases E hE data hne st hst
  · obtain ⟨out, ho⟩ := fft_frame_count E hE data st [] (fftOk_nil st) (by simp)
    exact ⟨_, out, h2, ho⟩
  · have hhl := fftHalf_length hE h1
    obtain ⟨k1, k2⟩ := fft_frame_freqs hE (by unfold baselinePoints; split_ifs <;> omega) h4 (c0 := Fft.start st) (by omega)
    have := paddedLen_ge data.length
    obtain ⟨out, ho⟩ := fft_frame_count E hE data st fs k1 fun f hf => by have := k2 f hf; omega
    exact ⟨_, out, h2, ho⟩

theorem fft_count_bounded (E : Ext) (hE : E.Lawful) (data : List F64) (hne : data ≠ []) (hlen : data.length < 2 ^ 62) (e : F64) :
    ∃ bs out, Compressor.fft.compressBounded E data e = .ok bs ∧ Compressor.fft.decompress E data.length bs = .ok out ∧
      out.length = data.length := by
  obtain ⟨st, hst⟩ := stats_ok hne
  obtain ⟨fs, r, _, h3, h4, h5, h6⟩ := fft_bounded_freqs E hE data hne hlen e st hst
  obtain ⟨out, ho⟩ := fft_frame_count E hE data st fs h5 h6
  exact ⟨_, out, h3, by rw [h4]; exact ho.1, ho.2⟩

theorem count_plain (E : Ext) (hE : E.Lawful) (c : Compressor) (hc : c ≠ .auto) (data : List F64) (hne : data ≠ [])
    (hlen : data.length < 2 ^ 62) :
    ∃ bs out, c.compress E data = .ok bs ∧ c.decompress E data.length bs = .ok out ∧ out.length = data.length := by
  have h64 : data.length < 2 ^ 64 := by omega
  cases c with
  | auto => exact absurd rfl hc
  | noop => obtain ⟨bs, out, h1, h2, h3, _⟩ := C13_noop_nearest E data hne h64; exact ⟨bs, out, h1, h2, h3⟩
  | fft => exact fft_count_plain E hE data hne hlen
  | idw => exact poly_count_plain E .idw data hne h64
  | polynomial => exact poly_count_plain E .polynomial data hne h64
  | rle => obtain ⟨st, bs, out, _, h1, h2, h3, _⟩ := C11_rle_runs E data hne h64; exact ⟨bs, out, h1, h2, h3⟩
  | constant =>
    obtain ⟨st, hst⟩ := stats_ok hne
    exact ⟨(Constant.new st.min st.bitdepth).enc, _, by rw [constant_compress_eq, hst, ok_bind]; rfl, constantToData_enc _ _ _, by simp⟩

theorem count_bounded (E : Ext) (hE : E.Lawful) (c : Compressor) (hc : c ≠ .auto) (data : List F64) (hne : data ≠ [])
    (hlen : data.length < 2 ^ 62) (e : F64) :
    ∃ bs out, c.compressBounded E data e = .ok bs ∧ c.decompress E data.length bs = .ok out ∧ out.length = data.length := by
  have h64 : data.length < 2 ^ 64 := by omega
  have same : ∀ c : Compressor, c.compressBounded E data e = c.compress E data →
      (∃ bs out, c.compress E data = .ok bs ∧ c.decompress E data.length bs = .ok out ∧ out.length = data.length) →
      ∃ bs out, c.compressBounded E data e = .ok bs ∧ c.decompress E data.length bs = .ok out ∧ out.length = data.length := by
    intro c h hh; rw [h]; exact hh
  cases c with
  | auto => exact absurd rfl hc
  | fft => exact fft_count_bounded E hE data hne hlen e
  | idw => exact poly_count_bounded E .idw data hne h64 e
  | polynomial => exact poly_count_bounded E .polynomial data hne h64 e
  | noop => exact same .noop rfl (count_plain E hE .noop hc data hne hlen)
  | rle => exact same .rle rfl (count_plain E hE .rle hc data hne hlen)
  | constant => exact same .constant rfl (count_plain E hE .constant hc data hne hlen)

theorem frame_count (E : Ext) (hE : E.Lawful) (op : ChunkOp) (h : op.Valid) :
    ∃ f out, op.frame E = .ok f ∧ f.decompress E = .ok out ∧ out.length = op.chunk.length := by
  obtain ⟨hne, hlen, hv⟩ := h
  cases op with
  | plain d =>
    obtain ⟨bs, out, h1, h2, h3⟩ := count_plain E hE .noop (by decide) d hne hlen
    refine ⟨{ Frame.new none with sampleCount := d.length, data := bs }, out, ?_, h2, h3⟩
    show (Compressor.noop.compress E d >>= _) = _
    rw [h1]; rfl
  | «using» d c =>
    obtain ⟨bs, out, h1, h2, h3⟩ := count_plain E hE c hv d hne hlen
    refine ⟨{ Frame.new (some c) with sampleCount := d.length, data := bs }, out, ?_, h2, h3⟩
    show (c.compress E d >>= _) = _
    rw [h1]; rfl
  | bounded d c e speed =>
    by_cases hc : c = .auto
    · subst hc
      obtain ⟨he, hsp⟩ := hv rfl
      obtain ⟨st, hst⟩ := stats_ok (data := d) hne
      obtain ⟨b1, b2, b3⟩ := best_cases E hE (Frame.new (some .auto)) d hne e speed hsp st hst
      have fin : ∀ c r, c.rank.isSome → c.boundedResults E d (FP.cvt e) = .ok r →
          (Frame.new (some .auto)).compressBest E d e speed =
            .ok { Frame.new (some .auto) with sampleCount := d.length, compressor := c, data := r.data } →
          ∃ f out, (ChunkOp.bounded d .auto e speed).frame E = .ok f ∧ f.decompress E = .ok out ∧ out.length = d.length := by
        intro c r k1 k2 k3
        obtain ⟨bs, out, h1, h2, h3⟩ := count_bounded E hE c (by rintro rfl; exact absurd k1 (by decide)) d hne hlen (FP.cvt e)
        rw [results_compress k2] at h1; obtain rfl := Except.ok.inj h1
        exact ⟨_, out, k3, h2, h3⟩
      cases hc : st.min.feq st.max with
      | true => exact ⟨_, _, b1 hc, constantToData_enc _ _ _, by simp [ChunkOp.chunk]⟩
      | false =>
        rcases Nat.lt_or_ge d.length (sampleSize speed) with hl | hl
        · obtain ⟨c, r, k1, k2, k3, _⟩ := b2 hc hl; exact fin c r k1 k2 k3
        · obtain ⟨c, r, _, k1, k2, k3, _⟩ := b3 hc hl he; exact fin c r k1 k2 k3
    · obtain ⟨bs, out, h1, h2, h3⟩ := count_bounded E hE c hc d hne hlen (FP.cvt e)
      refine ⟨{ Frame.new (some c) with sampleCount := d.length, data := bs }, out, ?_, h2, h3⟩
      have : (ChunkOp.bounded d c e speed).frame E = (Frame.new (some c)).compressBounded E d e := by
        cases c <;> first | rfl | exact absurd rfl hc
      rw [this]
      show (c.compressBounded E d (FP.cvt e) >>= _) = _
      rw [h1]; rfl

/-- C07, one chunk: every valid call succeeds on a new stream, and the stream decompresses to as many samples as the chunk has. -/
theorem C07_chunk_count (E : Ext) (hE : E.Lawful) (p : Profile) (op : ChunkOp) (h : op.Valid) :
    ∃ out, op.alone E p = .ok out ∧ out.length = op.chunk.length := by
  obtain ⟨f, out, h1, h2, h3⟩ := frame_count E hE op h
  exact ⟨out, by rw [alone_eq h1, h2], h3⟩

theorem runOps_valid (E : Ext) (hE : E.Lawful) (p : Profile) : ∀ (ops : List ChunkOp) (s : Stream), (∀ op ∈ ops, op.Valid) →
    (p = .debug → s.header.frameCount.toNat + ops.length ≤ 255) → ∃ t, s.runOps E p ops = .ok t := by
  intro ops
  induction ops with
  | nil => exact fun s _ _ => ⟨s, rfl⟩
  | cons op ops ih =>
    intro s hv hr
    obtain ⟨f, out, h1, _⟩ := frame_count E hE op (hv op (by simp))
    have hroom : HasRoom p s := by
      intro hp hc
      have := hr hp
      rw [hc] at this
      simp at this
    obtain ⟨s', h2, h3⟩ := push_room hroom f
    have hfc := (push_ok h2).2.2.1
    obtain ⟨t, ht⟩ := ih s' (fun op ho => hv op (by simp [ho])) (by
      intro hp
      have := hr hp
      rw [hfc]
      simp only [List.length_cons] at this
      rw [UInt8.toNat_add]
      have h1 : (1 : UInt8).toNat = 1 := rfl
      rw [h1]
      omega)
    refine ⟨t, ?_⟩
    unfold Stream.runOps
    rw [apply_eq, h1, ok_bind, h2]
    exact ht

/-- C07, whole streams: any history of valid calls (at most 255 of them in a debug build) succeeds, and the stream decompresses to as many
samples as were put in. -/
theorem C07_stream_count (E : Ext) (hE : E.Lawful) (p : Profile) (ops : List ChunkOp) (hv : ∀ op ∈ ops, op.Valid)
    (hp : p = .debug → ops.length ≤ 255) :
    ∃ s out, Built E p ops s ∧ s.decompress E = .ok out ∧ out.length = (ops.map fun op => op.chunk.length).sum := by
  obtain ⟨s, hs⟩ := runOps_valid E hE p ops Stream.new hv (by simpa [Stream.new, Header.new] using hp)
  have hb : Built E p ops s := hs
  have key : ∀ ops : List ChunkOp, (∀ op ∈ ops, op.Valid) → ∃ out, concatOk (ChunkOp.alone E p) ops = .ok out ∧
      out.length = (ops.map fun op => op.chunk.length).sum := by
    intro ops
    induction ops with
    | nil => exact fun _ => ⟨[], rfl, rfl⟩
    | cons op ops ih =>
      intro hv
      obtain ⟨a, h1, h2⟩ := C07_chunk_count E hE p op (hv op (by simp))
      obtain ⟨b, h3, h4⟩ := ih fun op ho => hv op (by simp [ho])
      exact ⟨a ++ b, by simp only [concatOk, h1, h3], by simp [h2, h4]⟩
  obtain ⟨out, h1, h2⟩ := key ops hv
  exact ⟨s, out, hb, by rw [decompress_built hb, h1], h2⟩

/-- C07, what is excluded: the Auto compressor through the unbounded entry point always panics (`todo!()`), unless the chunk is empty, which
panics for every compressor. -/
theorem C07_auto_needs_bound (E : Ext) (p : Profile) (s : Stream) (data : List F64) (hne : data ≠ []) :
    (ChunkOp.using data .auto).apply E p s = .error .todo := by
  obtain ⟨st, hst⟩ := stats_ok hne
  rw [apply_eq]
  simp only [ChunkOp.frame, Frame.compress, Frame.new, Option.getD_some, Compressor.compress, hst, ok_bind, err_bind]

/-- An empty chunk panics whatever the call. -/
theorem C07_empty_chunk_panics (E : Ext) (p : Profile) (s : Stream) (op : ChunkOp) (h : op.chunk = []) :
    op.apply E p s = .error .index := by
  rw [apply_eq]
  cases op with
  | plain d => obtain rfl : d = [] := h; rfl
  | «using» d c => obtain rfl : d = [] := h; rfl
  | bounded d c e speed =>
    obtain rfl : d = [] := h
    cases c <;> first | rfl | skip
    simp only [ChunkOp.frame, Frame.compressBest]
    split
    · rfl
    · rfl

/-- Valid calls exist for every entry point; the chunk may hold NaN and infinities. -/
example : (ChunkOp.plain demoData).Valid ∧ (ChunkOp.using demoData .fft).Valid ∧ (ChunkOp.bounded demoData .auto FP.zero 3).Valid ∧
    (ChunkOp.using [FP.nan, FP.inf true, F64.lit 1] .polynomial).Valid := by
  exact ⟨⟨by simp [ChunkOp.chunk, demoData], by decide, trivial⟩, ⟨by simp [ChunkOp.chunk, demoData], by decide, by decide⟩,
    ⟨by simp [ChunkOp.chunk, demoData], by decide, fun _ => ⟨zero32_le, by decide⟩⟩, by simp [ChunkOp.chunk], by simp [ChunkOp.chunk], by decide⟩

end Atsc
