import Verif.Spec.Request
import Verif.Props.Cli
import Verif.Props.Auto
import Verif.Props.Poly
import Verif.Lemmas.Cvt
/- C69: the file written by the command line holds what was requested. -/
namespace Atsc
open FP

theorem noop_head (data : List F64) : (noop data).head? = some 250 := rfl
theorem constant_head (data : List F64) (st : DataStats) : (constantCompressor data st).data.head? = some 30 := rfl
theorem rle_head (data : List F64) (st : DataStats) : (rleCompressor data st).data.head? = some 60 := rfl
theorem fft_head (c : Fft) : c.enc.head? = some c.id := rfl
theorem poly_head (c : Poly) : c.enc.head? = some (match c.id with | .polynomial => 0 | .idw => 1) := by
  unfold Poly.enc
  cases c.id <;> rfl

theorem fft_plain_head (E : Ext) (hE : E.Lawful) (data : List F64) (hne : data ≠ []) {bs : Bytes} (h : Compressor.fft.compress E data = .ok bs) :
    bs.head? = some 15 := by
  obtain ⟨st, hst⟩ := stats_ok hne
  obtain ⟨c, h1, h2⟩ := fft_plain_cases E hE data hne st hst
  rw [h] at h1
  rw [Except.ok.inj h1, fft_head]
  rcases h2 with ⟨_, rfl⟩ | ⟨_, fs, _, rfl⟩ <;> rfl

theorem fft_results_head (E : Ext) (hE : E.Lawful) (data : List F64) (hne : data ≠ []) (e : F64) :
    ∃ r, Compressor.fft.boundedResults E data e = .ok r ∧ Compressor.fft.compressBounded E data e = .ok r.data ∧ r.data.head? = some 15 := by
  obtain ⟨st, hst⟩ := stats_ok hne
  obtain ⟨c, r, h1, h2, h3, h4⟩ := fft_bounded_cases E hE data hne e st hst
  refine ⟨r, h1, h2, ?_⟩
  rw [h3, fft_head]
  rcases h4 with ⟨_, rfl, _⟩ | ⟨_, _, rfl, _⟩ | ⟨_, _, s, ⟨⟨fs, _, hs⟩, _⟩, _, _, rfl, _⟩
  · rfl
  · rfl
  · rw [hs]; rfl

theorem poly_plain_head (data : List F64) (hne : data ≠ []) (ty : PolyType) {bs : Bytes} (h : polynomial data ty = .ok bs) :
    bs.head? = ty.comp.payloadId := by
  obtain ⟨st, hst⟩ := stats_ok hne
  obtain ⟨c, h1, h2⟩ := poly_plain_cases data hne ty st hst
  rw [h] at h1
  rw [Except.ok.inj h1, poly_head]
  rcases h2 with ⟨_, rfl⟩ | ⟨_, k, _, _, rfl⟩ <;> cases ty <;> rfl

theorem poly_results_head (E : Ext) (data : List F64) (hne : data ≠ []) (ty : PolyType) (e : F64) :
    ∃ r, polynomialAllowedError E data e ty = .ok r ∧ r.data.head? = ty.comp.payloadId := by
  obtain ⟨st, hst⟩ := stats_ok hne
  obtain ⟨c, r, h1, h2, h3⟩ := poly_bounded_cases E data hne ty e st hst
  refine ⟨r, h1, ?_⟩
  rw [h2, poly_head]
  rcases h3 with ⟨_, rfl, _⟩ | ⟨_, _, rfl⟩ | ⟨_, _, s, hs, rfl, _⟩
  · cases ty <;> rfl
  · cases ty <;> rfl
  · obtain ⟨k, _, _, hk⟩ := polyDone_stored hs
    rw [hk]; cases ty <;> rfl

/-- Payload of the chosen compressor, plain. -/
theorem compress_head (E : Ext) (hE : E.Lawful) (c : Compressor) (data : List F64) (hne : data ≠ []) {bs : Bytes} (h : c.compress E data = .ok bs) :
    bs.head? = c.payloadId := by
  obtain ⟨st, hst⟩ := stats_ok hne
  cases c with
  | fft => exact fft_plain_head E hE data hne h
  | _ =>
    simp only [Compressor.compress, hst, ok_bind] at h
    first
      | (rw [← Except.ok.inj h]; rfl)
      | exact poly_plain_head data hne .idw h
      | exact poly_plain_head data hne .polynomial h
      | exact absurd h (by simp)

theorem results_head (E : Ext) (hE : E.Lawful) (c : Compressor) (data : List F64) (hne : data ≠ []) (e : F64) {r : CResult}
    (h : c.boundedResults E data e = .ok r) : r.data.head? = c.payloadId := by
  obtain ⟨st, hst⟩ := stats_ok hne
  cases c with
  | fft =>
    obtain ⟨r', h1, _, h3⟩ := fft_results_head E hE data hne e
    rw [h] at h1; rw [Except.ok.inj h1]; exact h3
  | idw =>
    obtain ⟨r', h1, h3⟩ := poly_results_head E data hne .idw e
    rw [← (comp_bounded E .idw data hne e).1, show PolyType.idw.comp = .idw from rfl, h] at h1
    rw [Except.ok.inj h1]; exact h3
  | polynomial =>
    obtain ⟨r', h1, h3⟩ := poly_results_head E data hne .polynomial e
    rw [← (comp_bounded E .polynomial data hne e).1, show PolyType.polynomial.comp = .polynomial from rfl, h] at h1
    rw [Except.ok.inj h1]; exact h3
  | noop => simp only [Compressor.boundedResults, hst, ok_bind] at h; rw [← Except.ok.inj h]; rfl
  | constant => simp only [Compressor.boundedResults, hst, ok_bind] at h; rw [← Except.ok.inj h]; rfl
  | rle => simp only [Compressor.boundedResults, hst, ok_bind] at h; rw [← Except.ok.inj h]; rfl
  | auto => simp only [Compressor.boundedResults, hst, ok_bind] at h; exact absurd h (by simp)

theorem bounded_head (E : Ext) (hE : E.Lawful) (c : Compressor) (data : List F64) (hne : data ≠ []) (e : F64) {bs : Bytes}
    (h : c.compressBounded E data e = .ok bs) : bs.head? = c.payloadId := by
  obtain ⟨st, hst⟩ := stats_ok hne
  cases c with
  | fft =>
    obtain ⟨r', _, h2, h3⟩ := fft_results_head E hE data hne e
    rw [h] at h2; rw [Except.ok.inj h2]; exact h3
  | idw =>
    obtain ⟨r', h1, h3⟩ := poly_results_head E data hne .idw e
    have h2 := (comp_bounded E .idw data hne e).2
    rw [h1, ok_bind, show PolyType.idw.comp = .idw from rfl, h] at h2
    rw [Except.ok.inj h2]; exact h3
  | polynomial =>
    obtain ⟨r', h1, h3⟩ := poly_results_head E data hne .polynomial e
    have h2 := (comp_bounded E .polynomial data hne e).2
    rw [h1, ok_bind, show PolyType.polynomial.comp = .polynomial from rfl, h] at h2
    rw [Except.ok.inj h2]; exact h3
  | noop => simp only [Compressor.compressBounded, hst, ok_bind] at h; rw [← Except.ok.inj h]; rfl
  | constant => simp only [Compressor.compressBounded, hst, ok_bind] at h; rw [← Except.ok.inj h]; rfl
  | rle => simp only [Compressor.compressBounded, hst, ok_bind] at h; rw [← Except.ok.inj h]; rfl
  | auto => simp only [Compressor.compressBounded, hst, ok_bind] at h; exact absurd h (by simp)

/-- The frame stored by `compressBest` is what the compressor it is tagged with produced. -/
theorem best_head (E : Ext) (hE : E.Lawful) (f g : Frame) (data : List F64) (hne : data ≠ []) (e : F32) (k : Nat)
    (h : f.compressBest E data e k = .ok g) : g.data.head? = g.compressor.payloadId ∧ CompressorType.auto.Allows g.compressor := by
  have hcand : ∀ {l : List (CResult × Compressor)} {cs : List Compressor} {d : List F64} {me : F64}, runAll E d me cs = .ok l → d ≠ [] →
      ∀ x ∈ l, x.1.data.head? = x.2.payloadId ∧ x.2 ∈ cs := by
    intro l cs
    induction cs generalizing l with
    | nil => intro d me h _ x hx; rw [runAll] at h; rw [← Except.ok.inj h] at hx; cases hx
    | cons c cs ih =>
      intro d me h hd x hx
      rw [runAll] at h
      obtain ⟨r, h1, h⟩ := bind_ok_iff.1 h
      obtain ⟨rs, h2, h⟩ := bind_ok_iff.1 h
      rw [← Except.ok.inj h, List.mem_cons] at hx
      rcases hx with rfl | hx
      · exact ⟨results_head E hE c d hd me h1, by simp⟩
      · exact ⟨(ih h2 hd x hx).1, List.mem_cons_of_mem _ (ih h2 hd x hx).2⟩
  have hmin : ∀ {l : List (CResult × Compressor)} {b : CResult × Compressor}, unwrapOpt (minByLen l) = .ok b → b ∈ l := by
    intro l b hb
    cases l with
    | nil => exact absurd hb (by simp [minByLen, unwrapOpt])
    | cons x xs =>
      simp only [minByLen, unwrapOpt] at hb
      rw [← Except.ok.inj hb]
      clear hb
      induction xs generalizing x with
      | nil => simp
      | cons y ys ih =>
        rw [List.foldl_cons]
        split_ifs
        · exact List.mem_cons_of_mem _ (ih y)
        · have := ih x
          rw [List.mem_cons] at this ⊢
          rcases this with h | h
          · exact .inl h
          · exact .inr (List.mem_cons_of_mem _ h)
  have hal : ∀ c ∈ candidates, CompressorType.auto.Allows c := by
    intro c hc
    simp only [candidates, List.mem_cons, List.not_mem_nil, or_false] at hc
    rcases hc with rfl | rfl | rfl
    · exact .inr (.inl rfl)
    · exact .inr (.inr (.inl rfl))
    · exact .inr (.inr (.inr rfl))
  unfold Frame.compressBest at h
  cases hs : compressionSpeed[k]? with
  | none => rw [hs] at h; exact absurd h (by simp)
  | some m =>
    rw [hs] at h
    simp only at h
    obtain ⟨st, _, h⟩ := bind_ok_iff.1 h
    split_ifs at h with h1 h2
    · obtain ⟨r, hr, h⟩ := bind_ok_iff.1 h
      rw [← Except.ok.inj h]
      exact ⟨results_head E hE .constant data hne _ hr, .inl rfl⟩
    · obtain ⟨rs, hrs, h⟩ := bind_ok_iff.1 h
      obtain ⟨b, hb, h⟩ := bind_ok_iff.1 h
      obtain ⟨r, hr, h⟩ := bind_ok_iff.1 h
      rw [← Except.ok.inj h]
      have hm : 0 < m := by
        have : m ∈ compressionSpeed := List.mem_of_getElem? hs
        have hall : ∀ x ∈ compressionSpeed, 0 < x := by decide
        exact hall m this
      have hd : data.take m ≠ [] := by
        intro hc
        rw [List.take_eq_nil_iff] at hc
        rcases hc with hc | hc
        · omega
        · exact hne hc
      have hin := List.mem_of_mem_filter (hmin hb)
      exact ⟨results_head E hE _ data hne _ hr, hal _ (hcand hrs hd b hin).2⟩
    · obtain ⟨rs, hrs, h⟩ := bind_ok_iff.1 h
      obtain ⟨b, hb, h⟩ := bind_ok_iff.1 h
      rw [← Except.ok.inj h]
      have hin : b ∈ rs := by
        split_ifs at hb
        · exact hmin hb
        · exact List.mem_of_mem_filter (hmin hb)
      exact ⟨(hcand hrs hne b hin).1, hal _ (hcand hrs hne b hin).2⟩

/-- C69 at the API: for every call that succeeds, the frame it adds counts the samples of the chunk, is tagged with the requested compressor (one of four for
Auto), and its payload was written by the compressor in the tag. -/
theorem C69_call (E : Ext) (hE : E.Lawful) (p : Profile) (s : Stream) (t : CompressorType) (chunk : List F64) (hne : chunk ≠ []) (e : F32) (level : Nat) (g : Frame)
    (h : (t.call chunk e level).Adds E p s g) :
    g.sampleCount = chunk.length ∧ t.Allows g.compressor ∧ g.data.head? = g.compressor.payloadId := by
  obtain ⟨f, hf, rfl⟩ := adds_inv h
  have hcnt := op_frame_count hf
  have hch : (t.call chunk e level).chunk = chunk := by cases t <;> rfl
  rw [hch] at hcnt
  refine ⟨hcnt, ?_⟩
  have hc : f.close.compressor = f.compressor := rfl
  have hd : f.close.data = f.data := rfl
  rw [hc, hd]
  clear hcnt hch h hc hd
  cases t <;> simp only [CompressorType.call, ChunkOp.frame] at hf
  case auto =>
    have := best_head E hE _ _ chunk hne e level hf
    exact ⟨this.2, this.1⟩
  all_goals
    first
      | (unfold Frame.compress at hf
         obtain ⟨bs, h1, h2⟩ := bind_ok_iff.1 hf
         rw [← Except.ok.inj h2]
         exact ⟨rfl, compress_head E hE _ chunk hne h1⟩)
      | (unfold Frame.compressBounded at hf
         obtain ⟨bs, h1, h2⟩ := bind_ok_iff.1 hf
         rw [← Except.ok.inj h2]
         exact ⟨rfl, bounded_head E hE _ chunk hne _ h1⟩)

/-- The bound handed to the library is the requested percentage, up to single precision. -/
theorem bound_value {n : Nat} (h : n ≤ 50) : ((FP.ofInt (n : Int) : F32).div (FP.ofInt 100)).isFinite = true ∧
    |((FP.ofInt (n : Int) : F32).div (FP.ofInt 100)).val - n / 100| ≤ 1 / 2 ^ 25 := by
  have key : ∀ n : Fin 51, ((FP.ofInt (n.val : Int) : F32).div (FP.ofInt 100)).isFinite = true ∧
      (100 * ((FP.ofInt (n.val : Int) : F32).div (FP.ofInt 100)).scaled - n.val * 2 ^ qexp 23 8).natAbs * 2 ^ 25 ≤ 100 * 2 ^ qexp 23 8 := by decide +kernel
  obtain ⟨k1, k2⟩ := key ⟨n, by omega⟩
  refine ⟨k1, ?_⟩
  rw [val_eq (by decide)]
  dsimp only at k2
  generalize ((FP.ofInt (n : Int) : F32).div (FP.ofInt 100)).scaled = z at *
  have hQ := qpow_posQ 23 8
  generalize qexp 23 8 = q at *
  have k3 : (((100 * z - n * 2 ^ q).natAbs : Nat) : ℚ) * 2 ^ 25 ≤ 100 * 2 ^ q := by exact_mod_cast k2
  rw [Nat.cast_natAbs] at k3
  push_cast at k3
  have e : (z : ℚ) / 2 ^ q - n / 100 = (100 * z - n * 2 ^ q) / (100 * 2 ^ q) := by
    field_simp
  rw [e, abs_div, abs_of_pos (show (0 : ℚ) < 100 * 2 ^ q by linarith), div_le_div_iff₀ (by linarith) (by norm_num), one_mul]
  exact k3

theorem op_is_call (a : CompArgs) (x : Compressor × List F64) (h : x.1 = a.compressor.toCompressor) :
    a.op x = a.compressor.call x.2 a.bound a.level := by
  obtain ⟨c, d⟩ := x
  simp only at h
  subst h
  unfold CompArgs.op
  cases a.compressor <;> rfl

theorem forall₂_frames {E : Ext} {p : Profile} {a : CompArgs} : ∀ {ex : List (Compressor × List F64)} {fs : List Frame},
    (∀ x ∈ ex, x.1 = a.compressor.toCompressor) → List.Forall₂ (fun op f => op.frame E = .ok f) (ex.map a.op) fs →
    List.Forall₂ (fun f c => (a.compressor.call c a.bound a.level).Adds E p Stream.new f) (fs.map Frame.close) (ex.map Prod.snd) := by
  intro ex
  induction ex with
  | nil => intro fs _ h; cases h; exact .nil
  | cons x xs ih =>
    intro fs hx h
    rw [List.map_cons] at h
    cases h with
    | cons h1 h2 =>
      refine .cons ?_ (ih (fun y hy => hx y (by simp [hy])) h2)
      rw [op_is_call a x (hx x (by simp))] at h1
      exact adds_of_frame (fun _ => by decide) h1

/-- C69 at the command line: the file written reads back as a stream whose frames are, in order, exactly what the expected library call stores for each chunk
of the finite samples, with the requested percentage as the bound. -/
theorem C69_file (E : Ext) (hE : E.Lawful) (p : Profile) (data : List F64) (a : CompArgs) (ha : a.Valid) (hp : FewEnough p data) :
    ∃ (bs : Bytes) (e : F32), compressData E p data a = .ok bs ∧ e.isFinite = true ∧ |e.val - (a.error : ℚ) / 100| ≤ 1 / 2 ^ 25 ∧
      (bs.length < 2 ^ 64 → ∃ s chunks, Stream.fromBytes bs = .ok s ∧ chunks.flatten = finiteSamples data ∧
        (∀ c ∈ chunks, 0 < c.length ∧ c.length ≤ 131072) ∧
        List.Forall₂ (fun f c => (a.compressor.call c e a.level).Adds E p Stream.new f) s.frames chunks) := by
  obtain ⟨ex, s, h1, h2, h3, h4, h5⟩ := pipeline E hE p data a ha hp
  refine ⟨s.toBytes, a.bound, h2, (bound_value ha.1).1, (bound_value ha.1).2, fun hl => ⟨s, ex.map Prod.snd, ?_, h3, ?_, ?_⟩⟩
  · have hf := pipeline_fits h1 (fun x hx => (h4 x hx).2.2.1) hl
    have hv : s.header.version ≤ 1 := by rw [(built_ok h1).1]; decide
    have := fromBytes_toBytes_append hf hv []
    rw [List.append_nil] at this
    exact this
  · intro c hc
    obtain ⟨x, hx, rfl⟩ := List.mem_map.1 hc
    exact ⟨(h4 x hx).2.1, (h4 x hx).2.2.1⟩
  · obtain ⟨-, -, -, fs, h6, h7⟩ := built_ok h1
    rw [h6]
    exact forall₂_frames (fun x hx => (h4 x hx).1) h7

/-- C69: so every frame of the file counts its chunk, is tagged with the requested compressor (one of four for `auto`) and holds that compressor's payload. -/
theorem C69_tags (E : Ext) (hE : E.Lawful) (p : Profile) (data : List F64) (a : CompArgs) (ha : a.Valid) (hp : FewEnough p data) :
    ∃ bs, compressData E p data a = .ok bs ∧
      (bs.length < 2 ^ 64 → ∃ s chunks, Stream.fromBytes bs = .ok s ∧ chunks.flatten = finiteSamples data ∧
        List.Forall₂ (fun (f : Frame) (c : List F64) => f.sampleCount = c.length ∧ a.compressor.Allows f.compressor ∧ f.data.head? = f.compressor.payloadId) s.frames chunks) := by
  obtain ⟨bs, e, h1, _, _, h2⟩ := C69_file E hE p data a ha hp
  refine ⟨bs, h1, fun hl => ?_⟩
  obtain ⟨s, chunks, q1, q2, q3, q4⟩ := h2 hl
  refine ⟨s, chunks, q1, q2, ?_⟩
  clear q1 q2 h1 h2
  generalize s.frames = fr at q4
  induction q4 with
  | nil => exact .nil
  | cons hd _ ih =>
    refine .cons ?_ (ih fun c hc => q3 c (by simp [hc]))
    exact C69_call E hE p Stream.new a.compressor _ (List.ne_nil_of_length_pos (q3 _ (by simp)).1) e a.level _ hd

/-- C69 on a concrete run: IDW requested at 5%, two frames' worth of checks on the bytes read back. -/
example : okAnd (compressData Ext.dummy .debug [F64.lit 5, FP.nan, F64.lit 6, F64.lit (-7)] { compressor := .idw, error := 5, level := 0 } >>=
    Stream.fromBytes) (fun s => decide (s.frames.map (fun f => (f.sampleCount, f.compressor, f.data.head?)) = [(3, .idw, some 1)])) = true := by decide +kernel

/-! ### C58 at the command line -/

/-- What uncompressing promises for one chunk compressed at `pct` percent: the samples to five decimals, or a mean absolute percentage error of at most `pct` percent
plus 0.0007 -- unless the interpolation returned NaN, or a zero sample came back as zero (when the error is not a number). -/
def ChunkMeets (pct : Nat) (c out : List F64) : Prop :=
  out.length = c.length ∧ (SameTo5Decimals c out ∨ (∃ v ∈ out, v.isNaN = true) ∨
    (∃ i, ∃ ha : i < c.length, ∃ hb : i < out.length, (c[i]).val = 0 ∧ (out[i]).val = 0) ∨
    ∃ err, calculateError c out = .ok err ∧ err.isFinite = true ∧ err.val ≤ pct / 100 + 7 / 10000)

theorem concat_outs {E : Ext} {p : Profile} {a : CompArgs} (R : List F64 → List F64 → Prop) : ∀ (ex : List (Compressor × List F64)),
    (∀ x ∈ ex, ∃ out, (a.op x).alone E p = .ok out ∧ R x.2 out) →
    ∃ outs, concatOk (ChunkOp.alone E p) (ex.map a.op) = .ok outs.flatten ∧ List.Forall₂ R (ex.map Prod.snd) outs := by
  intro ex
  induction ex with
  | nil => exact fun _ => ⟨[], rfl, .nil⟩
  | cons x xs ih =>
    intro h
    obtain ⟨o1, h1, h2⟩ := h x (by simp)
    obtain ⟨o2, h3, h4⟩ := ih fun y hy => h y (by simp [hy])
    exact ⟨o1 :: o2, by simp only [List.map_cons, concatOk, h1, h3, List.flatten_cons], .cons h2 h4⟩

theorem calc_len {a b : List F64} {e : F64} (h : calculateError a b = .ok e) : a.length = b.length := by
  by_contra hc
  unfold calculateError ErrorMethod.error errorMape at h
  simp only at h
  rw [if_pos hc] at h
  exact absurd h (by simp)

theorem poly_chunk_meets (E : Ext) (hI : E.Interpolates) (ty : PolyType) (c : List F64) (hne : c ≠ []) (hlen : c.length ≤ 131072)
    (hfin : AllFinite c) (hr : ∀ x ∈ c, InRange x) (hz : ∀ x ∈ c, x.val = 0 → x.sign = false) (pct : Nat) (hp : pct ≤ 50) :
    ∃ bs out, ty.comp.compressBounded E c (FP.cvt ((FP.ofInt (pct : Int) : F32).div (FP.ofInt 100)) : F64) = .ok bs ∧
      ty.comp.decompress E c.length bs = .ok out ∧ ChunkMeets pct c out := by
  obtain ⟨bf, bv⟩ := bound_value hp
  have b0 := bound_nonneg hp
  obtain ⟨wf, wv⟩ := widen_val bf
  set e : F64 := FP.cvt ((FP.ofInt (pct : Int) : F32).div (FP.ofInt 100)) with he
  have hpq : (pct : ℚ) ≤ 50 := by exact_mod_cast hp
  have hv0 : 0 ≤ e.val := by
    rw [wv]
    have h1 := (val_le_iff (x := (FP.zero : F32)) (y := (FP.ofInt (pct : Int) : F32).div (FP.ofInt 100)) (by decide)).2 (le_iff.1 b0).2.2
    have h2 : (FP.zero : F32).val = 0 := by
      rw [val_eq (by decide), show (FP.zero : F32).scaled = 0 by decide +kernel]; simp
    rw [h2] at h1; exact h1
  rw [← wv] at bv
  have ⟨b1, b2⟩ := abs_le.1 bv
  have hv1 : e.val ≤ 51 / 100 := by norm_num at b2; linarith
  have hv40 : e.val ≤ 2 ^ 40 := le_trans hv1 (by norm_num)
  have hn : ∀ y ∈ c, y.isNaN = false := fun y hy => isFinite_not_nan (hfin y hy)
  clear he bf b0 wv
  clear_value e
  obtain ⟨bs, out, q1, q2, q3, q4⟩ := C17_range_bounded E ty c hne (lt_of_le_of_lt hlen (by norm_num)) hn e
  refine ⟨bs, out, q1, q2, q3, ?_⟩
  by_cases hcst : ∃ x ∈ c, ∃ y ∈ c, x.lt y = true
  · obtain ⟨x, hx, y, hy, hxy⟩ := hcst
    obtain ⟨r, out', h1, h2, h3⟩ := C58_poly_bound_partial E ty c (le_trans hlen (by norm_num)) hfin hr hz x y hx hy hxy e wf hv0 hv40
    have hb : bs = r.data := by
      rw [(comp_bounded E ty c hne e).1] at h1
      rw [(comp_bounded E ty c hne e).2, h1, ok_bind] at q1
      exact (Except.ok.inj q1).symm
    rw [← hb] at h2 h3
    rw [q2] at h2
    obtain rfl := Except.ok.inj h2
    rcases h3 with h3 | h3 | h3 | ⟨err, g1, g2, g3⟩
    · obtain ⟨out2, o1, o2, _⟩ := C19_stored_all E hI ty c (le_trans hlen (by norm_num)) hfin hr x y hx hy hxy e bs (.inr q1) h3
      rw [q2] at o1
      obtain rfl := Except.ok.inj o1
      exact .inl o2
    · exact .inr (.inl h3)
    · exact .inr (.inr (.inl h3))
    · refine .inr (.inr (.inr ⟨err, g1, g2, le_trans g3 ?_⟩))
      norm_num at b2 ⊢
      linarith
  · by_cases hNaN : ∃ v ∈ out, v.isNaN = true
    · exact .inr (.inl hNaN)
    · left
      refine ⟨q3, fun i h1 h2 => ?_⟩
      have hyn : (out[i]).isNaN = false := by
        by_contra hc
        rw [Bool.not_eq_false] at hc
        exact hNaN ⟨_, List.getElem_mem h1, hc⟩
      obtain ⟨⟨x, hx, hx1⟩, ⟨y, hy, hy1⟩⟩ := q4 _ (List.getElem_mem h1) hyn
      have hnot : ∀ u ∈ c, ∀ w ∈ c, u.val ≤ w.val := by
        intro u hu w hw
        by_contra hc
        apply hcst
        refine ⟨w, hw, u, hu, ?_⟩
        rw [lt_iff]
        refine ⟨hn w hw, hn u hu, ?_⟩
        by_contra hc2
        exact hc ((val_le_iff (by decide)).2 (not_lt.1 hc2))
      have e1 : (out[i]).val = (c[i]).val := by
        have u1 := (val_le_iff (by decide)).2 (le_iff.1 hx1).2.2
        have u2 := (val_le_iff (by decide)).2 (le_iff.1 hy1).2.2
        have u3 := hnot _ (List.getElem_mem h2) _ hx
        have u4 := hnot _ hy _ (List.getElem_mem h2)
        exact le_antisymm (le_trans u2 u4) (le_trans u3 u1)
      rw [e1, sub_self, abs_zero]
      positivity

/-- C58 at the command line (the part that holds): `--compressor polynomial` or `idw` with an error of `a.error` percent. Whatever the (finite, in-range) samples, uncompressing gives,
chunk by chunk, the samples to five decimals or a MAPE of at most `a.error` percent plus 0.0007, unless the library returned NaN or a zero came back as zero. -/
theorem C58_cli_partial (E : Ext) (hE : E.Lawful) (hI : E.Interpolates) (p : Profile) (data : List F64) (a : CompArgs) (ha : a.Valid) (hp : FewEnough p data)
    (hc : a.compressor = .polynomial ∨ a.compressor = .idw) (hr : ∀ x ∈ data, x.isFinite = true → InRange x)
    (hz : ∀ x ∈ data, x.val = 0 → x.sign = false) :
    ∃ bs, compressData E p data a = .ok bs ∧
      (bs.length < 2 ^ 64 → ∃ chunks outs, chunks.flatten = finiteSamples data ∧ decompressData E bs = .ok outs.flatten ∧
        List.Forall₂ (ChunkMeets a.error) chunks outs) := by
  obtain ⟨ex, s, h1, h2, h3, h4, h5⟩ := pipeline E hE p data a ha hp
  refine ⟨_, h2, fun hl => ?_⟩
  rw [decompressData_ok h1 (fun x hx => (h4 x hx).2.2.1) hl, ← h3]
  obtain ⟨ty, hty⟩ : ∃ ty : PolyType, ∀ c e k, a.compressor.call c e k = .bounded c ty.comp e k := by
    rcases hc with hc | hc
    · exact ⟨.polynomial, fun c e k => by rw [hc]; rfl⟩
    · exact ⟨.idw, fun c e k => by rw [hc]; rfl⟩
  obtain ⟨outs, o1, o2⟩ := concat_outs (E := E) (p := p) (a := a) (ChunkMeets a.error) ex (fun x hx => by
    obtain ⟨q1, q2, q3, q4⟩ := h4 x hx
    have hmem : ∀ y ∈ x.2, y ∈ data := by
      intro y hy
      have : y ∈ (ex.map Prod.snd).flatten := List.mem_flatten.2 ⟨x.2, List.mem_map.2 ⟨x, hx, rfl⟩, hy⟩
      rw [h3] at this
      exact (List.mem_filter.1 this).1
    obtain ⟨bs, out, m1, m2, m3⟩ := poly_chunk_meets E hI ty x.2 (List.ne_nil_of_length_pos q2) q3 q4 (fun y hy => hr y (hmem y hy) (q4 y hy))
      (fun y hy => hz y (hmem y hy)) a.error ha.1
    rw [op_is_call a x q1, hty]
    refine ⟨out, ?_, m3⟩
    have hf : (ChunkOp.bounded x.2 ty.comp a.bound a.level).frame E = .ok { frameSize := 0, sampleCount := x.2.length, compressor := ty.comp, data := bs } := by
      have hb : ty.comp.compressBounded E x.2 (FP.cvt a.bound) = .ok bs := m1
      cases ty <;> simp only [ChunkOp.frame, PolyType.comp, Frame.compressBounded, Frame.new, Option.getD_some] at hb ⊢ <;> rw [hb] <;> rfl
    rw [alone_eq hf]
    exact m2)
  exact ⟨_, outs, rfl, o1, o2⟩

/-- C58_cli_partial applies: rampData (1, 2, ..., as in C58_poly_bound_partial), IDW at 5%, step interpolation. -/
example : ∃ bs, compressData Ext.dummy .debug rampData { compressor := .idw, error := 5, level := 0 } = .ok bs ∧
    (bs.length < 2 ^ 64 → ∃ chunks outs, chunks.flatten = finiteSamples rampData ∧ decompressData Ext.dummy bs = .ok outs.flatten ∧
      List.Forall₂ (ChunkMeets 5) chunks outs) :=
  C58_cli_partial Ext.dummy Ext.dummy_lawful Ext.dummy_interpolates .debug rampData _ ⟨by decide, by decide⟩ (fun _ => by decide +kernel) (.inr rfl)
    (fun x hx _ => rampData_safe.2.1 x hx) rampData_safe.2.2

end Atsc
