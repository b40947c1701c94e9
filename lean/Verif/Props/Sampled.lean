import Verif.Props.FftCli
/- C89 at every compression level: what Auto gives when it chooses the compressor from a sample of the chunk. -/
namespace Atsc
open FP

/-- What `auto` at `pct` percent promises for one chunk at any level: what it promises when it compares the compressors on the whole chunk (`KeptWithin`); or, when it
compared them on a beginning of the chunk only, what the chosen one, Polynomial (`ChunkMeets`) or FFT (`FftMeets`), promises by itself. -/
def AutoMeets (E : Ext) (e : F64) (pct : Nat) (c out : List F64) : Prop :=
  KeptWithin pct c out ∨ ChunkMeets pct c out ∨ FftMeets E e pct c out

theorem auto_chunk_meets (E : Ext) (hE : E.Lawful) (hI : E.Interpolates) (p : Profile) (data : List F64) (hne : data ≠ [])
    (hlen : data.length ≤ 131072) (hfin : AllFinite data) (hr : ∀ x ∈ data, InRange x) (hz : ∀ x ∈ data, x.val = 0 → x.sign = false)
    (pct : Nat) (hpct : pct ≤ 50) (speed : Nat) (hsp : speed ≤ 6) (g : Frame)
    (h : (ChunkOp.bounded data .auto ((FP.ofInt (pct : Int) : F32).div (FP.ofInt 100)) speed).Adds E p Stream.new g) :
    ∃ out, g.decompress E = .ok out ∧ AutoMeets E (FP.cvt ((FP.ofInt (pct : Int) : F32).div (FP.ofInt 100))) pct data out := by
  rcases Nat.lt_or_ge data.length (sampleSize speed) with hl | hl
  · obtain ⟨out, o1, o2⟩ := C89_chunk_partial E hE hI p Stream.new data hne hlen hfin hr pct hpct speed hsp hl g h
    exact ⟨out, o1, .inl o2⟩
  obtain ⟨st, hst⟩ := stats_ok hne
  obtain ⟨b1, -, b3⟩ := best_cases E hE (Frame.new (some .auto)) data hne ((FP.ofInt (pct : Int) : F32).div (FP.ofInt 100)) speed hsp st hst
  obtain ⟨f, hf, rfl⟩ := adds_inv h
  have hf : (Frame.new (some .auto)).compressBest E data ((FP.ofInt (pct : Int) : F32).div (FP.ofInt 100)) speed = .ok f := hf
  have hl64 : data.length < 2 ^ 64 := lt_of_le_of_lt hlen (by norm_num)
  rw [decompress_close]
  cases hc : st.min.feq st.max with
  | true =>
    obtain ⟨bs, out, h1, h2, h3⟩ := C12_constant_lossless E data hne hfin hr ((minmax_feq_iff hne hfin hst).1 hc)
    have hb := b1 hc
    rw [hf] at hb; obtain rfl := Except.ok.inj hb
    rw [constant_compress_eq, hst, ok_bind] at h1
    obtain rfl := Except.ok.inj h1
    exact ⟨out, h2, .inl ⟨h3.1, .inl h3⟩⟩
  | false =>
    obtain ⟨c, r, bs, h1, h2, h3, -⟩ := b3 hc hl (bound_nonneg hpct)
    rw [hf] at h3; obtain rfl := Except.ok.inj h3
    have hb := results_compress h2
    show ∃ out, c.decompress E data.length r.data = .ok out ∧ _
    cases c <;> simp only [Compressor.rank, Option.isSome_none, Bool.false_eq_true] at h1
    · obtain ⟨bs, out, k1, k2, k3⟩ := fft_chunk_meets E hE data hne hlen hfin hr pct hpct _ rfl
      rw [hb] at k1; obtain rfl := Except.ok.inj k1
      exact ⟨out, k2, .inr (.inr k3)⟩
    · obtain ⟨bs, out, k1, k2, k3⟩ := poly_chunk_meets E hI .polynomial data hne hlen hfin hr hz pct hpct
      have hb : PolyType.polynomial.comp.compressBounded E data (FP.cvt ((FP.ofInt (pct : Int) : F32).div (FP.ofInt 100))) = .ok r.data := hb
      rw [hb] at k1; obtain rfl := Except.ok.inj k1
      exact ⟨out, k2, .inr (.inl k3)⟩
    · obtain ⟨bs, out, k1, k2, k3⟩ := C10_rle_lossless E data hne hl64 hfin hr
      have h4 := (C11_rle_bounded_same E data (FP.cvt ((FP.ofInt (pct : Int) : F32).div (FP.ofInt 100))) bs k1).2
      rw [h2] at h4; obtain rfl := Except.ok.inj h4
      exact ⟨out, k2, .inl ⟨k3.1, .inl k3⟩⟩

/-- C89 (the part that holds), at the command line and at every level: the default `auto`, whatever the percentage and the samples (finite ones in range, no -0.0), gives the
finite samples back chunk by chunk as `AutoMeets` says.  Missing from the full property: what `KeptWithin`, `ChunkMeets` and `FftMeets` allow beyond the requested percentage
(`C89_refuted_padding`, `C58_refuted_fft_zero`, `C58_refuted_fft_rounds`), and samples outside `InRange`. -/
theorem C89_levels_partial (E : Ext) (hE : E.Lawful) (hI : E.Interpolates) (p : Profile) (data : List F64) (a : CompArgs) (ha : a.Valid) (hp : FewEnough p data)
    (hc : a.compressor = .auto) (hr : ∀ x ∈ data, x.isFinite = true → InRange x ∧ (x.val = 0 → x.sign = false)) :
    ∃ bs e, compressData E p data a = .ok bs ∧ e.isFinite = true ∧ |e.val - (a.error : ℚ) / 100| ≤ 1 / 2 ^ 25 ∧
      (bs.length < 2 ^ 64 → ∃ chunks outs, chunks.flatten = finiteSamples data ∧ decompressData E bs = .ok outs.flatten ∧
        List.Forall₂ (AutoMeets E e a.error) chunks outs) := by
  obtain ⟨ex, s, h1, h2, h3, h4, h5⟩ := pipeline E hE p data a ha hp
  obtain ⟨bf, bv⟩ := bound_value ha.1
  obtain ⟨wf, wv⟩ := widen_val bf
  rw [← wv] at bv
  refine ⟨_, _, h2, wf, bv, fun hl => ?_⟩
  rw [decompressData_ok h1 (fun x hx => (h4 x hx).2.2.1) hl, ← h3]
  obtain ⟨outs, o1, o2⟩ := concat_outs (E := E) (p := p) (a := a) (AutoMeets E (FP.cvt ((FP.ofInt (a.error : Int) : F32).div (FP.ofInt 100))) a.error) ex (fun x hx => by
    obtain ⟨q1, q2, q3, q4⟩ := h4 x hx
    have hmem : ∀ y ∈ x.2, y ∈ data := by
      intro y hy
      have : y ∈ (ex.map Prod.snd).flatten := List.mem_flatten.2 ⟨x.2, List.mem_map.2 ⟨x, hx, rfl⟩, hy⟩
      rw [h3] at this
      exact (List.mem_filter.1 this).1
    have hne := List.ne_nil_of_length_pos q2
    rw [op_is_call a x q1, hc]
    obtain ⟨g, g1, -, -⟩ := C25_succeeds E hE p Stream.new (fun _ => by decide) x.2 hne a.bound (bound_nonneg ha.1) a.level ha.2
    obtain ⟨out, d1, d2⟩ := auto_chunk_meets E hE hI p x.2 hne q3 q4 (fun y hy => (hr y (hmem y hy) (q4 y hy)).1) (fun y hy => (hr y (hmem y hy) (q4 y hy)).2)
      a.error ha.1 a.level ha.2 g g1
    refine ⟨out, ?_, d2⟩
    obtain ⟨f, hf, rfl⟩ := adds_inv g1
    show (ChunkOp.bounded x.2 .auto a.bound a.level).alone E p = .ok out
    rw [alone_eq hf]
    exact d1)
  exact ⟨_, outs, rfl, o1, o2⟩

/-- It applies: 1, 2 at 5%, level 3. -/
example : ∃ bs e, compressData Ext.dummy .debug [F64.lit 1, F64.lit 2] { compressor := .auto, error := 5, level := 3 } = .ok bs ∧ e.isFinite = true ∧
    |e.val - ((5 : Nat) : ℚ) / 100| ≤ 1 / 2 ^ 25 ∧
    (bs.length < 2 ^ 64 → ∃ chunks outs, chunks.flatten = finiteSamples [F64.lit 1, F64.lit 2] ∧ decompressData Ext.dummy bs = .ok outs.flatten ∧
      List.Forall₂ (AutoMeets Ext.dummy e 5) chunks outs) :=
  C89_levels_partial Ext.dummy Ext.dummy_lawful Ext.dummy_interpolates .debug _ _ ⟨by decide, by decide⟩ (fun _ => by decide) rfl
    (fun x hx _ => by
      simp only [List.mem_cons, List.not_mem_nil, or_false] at hx
      rcases hx with rfl | rfl
      · exact ⟨inRange_of_int (lit_val (by decide)).2 (by decide), fun _ => by decide +kernel⟩
      · exact ⟨inRange_of_int (lit_val (by decide)).2 (by decide), fun _ => by decide +kernel⟩)

end Atsc
