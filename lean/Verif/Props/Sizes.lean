import Verif.Spec.Size
import Verif.Props.Requested
/- C73: how large a compressed chunk and a compressed file can be. -/
namespace Atsc
open FP

theorem encVar_le_self {k : Nat} (h : 1 ≤ k) : (encVar k).length ≤ k := by
  rw [C09_size]; unfold wireSize; split_ifs <;> omega

theorem encVec_len_le {α : Type} {e : α → Bytes} {m : Nat} (xs : List α) (hl : xs.length < 2 ^ 32) (h : ∀ x ∈ xs, (e x).length ≤ m) :
    (encVec e xs).length ≤ 5 + m * xs.length := by
  unfold encVec
  rw [List.length_append]
  have h1 := encVar_len_le xs.length hl
  have h2 : ((xs.map e).flatten).length ≤ m * xs.length := by
    clear h1 hl
    induction xs with
    | nil => simp
    | cons x xs ih =>
      have := ih fun y hy => h y (by simp [hy])
      have := h x (by simp)
      rw [List.map_cons, List.flatten_cons, List.length_append, List.length_cons, Nat.mul_succ]
      omega
  omega

theorem encU8_len (b : UInt8) : (encU8 b).length = 1 := rfl

theorem constant_size (data : List F64) (st : DataStats) : (constantCompressor data st).data.length ≤ 10 := by
  unfold constantCompressor Constant.enc Constant.new
  dsimp only
  have := encValue_len_le st.bitdepth st.min
  rw [List.length_append, List.length_append, encBitdepth_len, encU8_len]; omega

theorem encSigned_le (i : Int) : (encSigned i).length ≤ 9 := by
  rw [C09_signed_size]; generalize (if 0 ≤ i then 2 * i.natAbs else 2 * i.natAbs - 1) = k
  unfold wireSize; split_ifs <;> omega

theorem noop_size (data : List F64) (hl : data.length < 2 ^ 32) : (noop data).length ≤ 6 + 9 * data.length := by
  unfold noop Noop.enc Noop.optimize
  dsimp only
  have := encVec_len_le (e := encSigned) (m := 9) (data.map fun x => F64.toI64 x.round) (by simpa using hl) (fun x _ => encSigned_le x)
  rw [List.length_map] at this
  rw [List.length_append, encU8_len]; omega

theorem fft_size (c : Fft) {k : Nat} (h : c.frequencies.length ≤ k) (hk : k < 2 ^ 32) : c.enc.length ≤ 14 + 11 * k ∨ ∃ f ∈ c.frequencies, 2 ^ 16 ≤ f.pos := by
  by_cases hp : ∃ f ∈ c.frequencies, 2 ^ 16 ≤ f.pos
  · exact .inr hp
  · left
    unfold Fft.enc
    have := encVec_len_le (e := FreqPoint.enc) (m := 11) c.frequencies (by omega) (by
      intro f hf
      have : ¬ 2 ^ 16 ≤ f.pos := fun hc => hp ⟨f, hf, hc⟩
      unfold FreqPoint.enc
      rw [List.length_append, List.length_append, encF32_len, encF32_len, C09_size]
      unfold wireSize; split_ifs <;> omega)
    rw [List.length_append, List.length_append, List.length_append, encU8_len, encF32_len, encF32_len]
    have := Nat.mul_le_mul_left 11 h
    omega

theorem poly_size (c : Poly) {n : Nat} (h : c.dataPoints.length ≤ n) (hn : n < 2 ^ 32) : c.enc.length ≤ 24 + 8 * n := by
  unfold Poly.enc
  have := encVec_len_le (e := encValue c.bitdepth) (m := 8) c.dataPoints (by omega) (fun x _ => encValue_len_le _ x)
  simp only [List.length_append, encBitdepth_len, encPolyType_len, encU8_len, encF64_len]
  omega

/-! ### RLE -/

theorem runs_count (i cur : Nat) (d : List F64) : (runs id i cur d).length = runCount d := by
  fun_induction runCount d generalizing i cur with
  | case1 => simp [runs]
  | case2 => simp [runs]
  | case3 v w rest ih =>
    simp only [runs]
    cases h : w.feq v
    · simp [ih]; omega
    · simp [ih]

theorem push_nonempty (k i : Nat) (m : BMap) (h : ∀ p ∈ m, p.2 ≠ []) : ∀ p ∈ BMap.push k i m, p.2 ≠ [] := by
  induction m with
  | nil => simp [BMap.push]
  | cons q m ih =>
    obtain ⟨k', is⟩ := q
    unfold BMap.push
    split_ifs with h1 h2
    · intro p hp
      rcases List.mem_cons.1 hp with rfl | hp
      · simp
      · exact h p hp
    · intro p hp
      rcases List.mem_cons.1 hp with rfl | hp
      · simp
      · exact h p (List.mem_cons_of_mem _ hp)
    · intro p hp
      rcases List.mem_cons.1 hp with rfl | hp
      · exact h _ (by simp)
      · exact ih (fun p hp => h p (List.mem_cons_of_mem _ hp)) p hp

theorem loop_nonempty (i cur : Nat) (d : List F64) (m : BMap) (h : ∀ p ∈ m, p.2 ≠ []) : ∀ p ∈ rleLoop i cur d m, p.2 ≠ [] := by
  fun_induction rleLoop i cur d m with
  | case1 => exact h
  | case2 i cur v m => exact push_nonempty _ _ _ h
  | case3 i cur v w rest m hc ih => exact ih (push_nonempty _ _ _ h)
  | case4 i cur v w rest m hc ih => exact ih h

theorem flat_size (bd : Bitdepth) : ∀ m : BMap, (∀ p ∈ m, p.2 ≠ []) → (∀ p ∈ bflat m, p.1 < 2 ^ 32) →
    ((m.map fun p => encValue bd (FP.ofBits p.1) ++ encVec encVar p.2).flatten).length ≤ 14 * (bflat m).length := by
  intro m
  induction m with
  | nil => simp
  | cons q m ih =>
    intro h1 h2
    obtain ⟨k, is⟩ := q
    have e : bflat ((k, is) :: m) = (is.map fun i => (i, k)) ++ bflat m := rfl
    rw [e] at h2 ⊢
    have := ih (fun p hp => h1 p (List.mem_cons_of_mem _ hp)) (fun p hp => h2 p (List.mem_append_right _ hp))
    have hne : 1 ≤ is.length := List.length_pos_of_ne_nil (h1 (k, is) (by simp))
    have hv := encValue_len_le bd (FP.ofBits k)
    have hi : ((is.map encVar).flatten).length ≤ 5 * is.length := by
      have h3 : ∀ i ∈ is, i < 2 ^ 32 := fun i hi => h2 (i, k) (List.mem_append_left _ (List.mem_map.2 ⟨i, hi, rfl⟩))
      clear * - h3
      induction is with
      | nil => simp
      | cons i is ih =>
        have := ih fun j hj => h3 j (by simp [hj])
        have := encVar_len_le i (h3 i (by simp))
        rw [List.map_cons, List.flatten_cons, List.length_append, List.length_cons]; omega
    have hl := encVar_le_self hne
    rw [List.map_cons, List.flatten_cons, List.length_append, List.length_append, List.length_append, List.length_map]
    have hvec : (encVec encVar is).length = (encVar is.length).length + ((is.map encVar).flatten).length := by unfold encVec; rw [List.length_append]
    dsimp only
    omega

theorem rle_size (data : List F64) (st : DataStats) (hl : data.length < 2 ^ 32) : (rleCompressor data st).data.length ≤ 7 + 14 * runCount data := by
  unfold rleCompressor IndexRLE.enc IndexRLE.new
  dsimp only
  have hperm := bflat_loop 0 0 data []
  simp only [bflat, List.flatMap_nil, List.map_nil, List.nil_append] at hperm
  change ((bflat (rleLoop 0 0 data [])).map fun p => (p.1, (FP.ofBits p.2 : F64))).Perm (runs id 0 0 data) at hperm
  have hlen := hperm.length_eq
  rw [List.length_map, runs_count] at hlen
  have hlt : ∀ p ∈ bflat (rleLoop 0 0 data []), p.1 < 2 ^ 32 := by
    intro p hp
    have h2 : (p.1, (FP.ofBits p.2 : F64)) ∈ runs id 0 0 data := hperm.mem_iff.1 (List.mem_map.2 ⟨p, hp, rfl⟩)
    have := runs_lt (le_refl 0) _ h2
    simp at this
    omega
  have h1 := flat_size st.bitdepth _ (loop_nonempty 0 0 data [] (by simp)) hlt
  have h2 := encVar_len_le (rleLoop 0 0 data []).length (by have := rleLoop_len 0 0 data []; simp at this; omega)
  rw [List.length_append, List.length_append, encBitdepth_len, encU8_len]
  unfold encVec
  rw [List.length_append, List.length_map, List.map_map]
  rw [hlen] at h1
  have h3 : (((rleLoop 0 0 data []).map ((fun p : F64 × List Nat => encValue st.bitdepth p.1 ++ (encVar p.2.length ++ (p.2.map encVar).flatten)) ∘ fun p => (FP.ofBits p.1, p.2))).flatten).length ≤
      14 * runCount data := h1
  omega

/-! ### Every compressor -/

theorem freq_count {n k : Nat} (hk : k ≤ 22) : baselinePoints n + fftJump (baselinePoints n) k ≤ n / 10 + 25 := by
  unfold fftJump baselinePoints
  have h17 : min k 17 ≤ 17 := Nat.min_le_right _ _
  have h5 : k - 17 ≤ 5 := by omega
  split_ifs with h
  · have h1 := Nat.mul_le_mul_right (Nat.max (3 / 2) 1) h17
    have h2 := Nat.mul_le_mul_right (Nat.max (3 / 10) 1) h5
    have e1 : Nat.max (3 / 2) 1 = 1 := by decide
    have e2 : Nat.max (3 / 10) 1 = 1 := by decide
    rw [e1] at h1 ⊢; rw [e2] at h2 ⊢; omega
  · have h1 := Nat.mul_le_mul_right (Nat.max (n / 100 / 2) 1) h17
    have h2 := Nat.mul_le_mul_right (Nat.max (n / 100 / 10) 1) h5
    have e1 : Nat.max (n / 100 / 2) 1 = n / 100 / 2 := Nat.max_eq_left (by omega)
    have e2 : Nat.max (n / 100 / 10) 1 ≤ n / 100 / 10 + 1 := Nat.max_le.2 ⟨by omega, by omega⟩
    rw [e1] at h1 ⊢
    generalize Nat.max (n / 100 / 10) 1 = z at *
    omega

theorem fft_trim_size {E : Ext} (hE : E.Lawful) (c0 : Fft) {half : List C32} {n k : Nat} (hn : n < 2 ^ 32) (hk : k ≤ 22) {fs : List FreqPoint}
    (h : fftTrim E half (baselinePoints n + fftJump (baselinePoints n) k) = .ok fs) :
    ({ c0 with frequencies := fs } : Fft).enc.length ≤ 14 + 11 * (n / 10 + 25) := by
  have hb : baselinePoints n + fftJump (baselinePoints n) k ≠ 1 := by unfold baselinePoints; split_ifs <;> omega
  obtain ⟨h1, _, h3⟩ := fftTrim_bins hE hb h
  have := freq_count (n := n) hk
  rcases fft_size { c0 with frequencies := fs } (k := n / 10 + 25) (by dsimp only; omega) (by omega) with h | ⟨f, hf, hp⟩
  · exact h
  · obtain ⟨q, _, rfl⟩ := h3 f hf
    have : q % 65536 < 65536 := Nat.mod_lt _ (by decide)
    exact absurd hp (by show ¬ 2 ^ 16 ≤ q % 65536; omega)

theorem fft_nil_size (st : DataStats) (n : Nat) : (Fft.start st).enc.length ≤ 14 + 11 * (n / 10 + 25) := by
  rcases fft_size (Fft.start st) (k := 0) (Nat.le_refl 0) (by decide) with h | ⟨f, hf, _⟩
  · omega
  · exact absurd hf (by simp [Fft.start, Fft.new])

theorem compress_size (E : Ext) (hE : E.Lawful) (c : Compressor) (data : List F64) (hne : data ≠ []) (hl : data.length < 2 ^ 32) {bs : Bytes}
    (h : c.compress E data = .ok bs) : bs.length ≤ c.maxPayload data := by
  obtain ⟨st, hst⟩ := stats_ok hne
  have hpos : 1 ≤ data.length := List.length_pos_of_ne_nil hne
  have hpoly : ∀ ty, polynomial data ty = .ok bs → bs.length ≤ 24 + 8 * data.length := by
    intro ty h
    obtain ⟨c, h1, h2⟩ := poly_plain_cases data hne ty st hst
    rw [h] at h1; rw [Except.ok.inj h1]
    rcases h2 with ⟨_, rfl⟩ | ⟨_, k, k1, _, rfl⟩
    · exact poly_size _ (by simp [Poly.start, Poly.new]) hl
    · exact poly_size _ (stored_length_le hpos k1 _) hl
  cases c with
  | fft =>
    obtain ⟨c, h1, h2⟩ := fft_plain_cases E hE data hne st hst
    rw [h] at h1; rw [Except.ok.inj h1]
    rcases h2 with ⟨_, rfl⟩ | ⟨_, fs, hf, rfl⟩
    · exact fft_nil_size st _
    · exact fft_trim_size hE _ hl (k := 0) (by omega) (by simpa [fftJump] using hf)
  | noop => simp only [Compressor.compress, hst, ok_bind] at h; rw [← Except.ok.inj h]; exact noop_size data hl
  | constant => simp only [Compressor.compress, hst, ok_bind] at h; rw [← Except.ok.inj h]; exact constant_size data st
  | rle => simp only [Compressor.compress, hst, ok_bind] at h; rw [← Except.ok.inj h]; exact rle_size data st hl
  | auto => simp only [Compressor.compress, hst, ok_bind] at h; exact absurd h (by simp)
  | polynomial => simp only [Compressor.compress, hst, ok_bind] at h; exact hpoly _ h
  | idw => simp only [Compressor.compress, hst, ok_bind] at h; exact hpoly _ h

theorem results_size (E : Ext) (hE : E.Lawful) (c : Compressor) (data : List F64) (hne : data ≠ []) (hl : data.length < 2 ^ 32) (e : F64) {r : CResult}
    (h : c.boundedResults E data e = .ok r) : r.data.length ≤ c.maxPayload data := by
  obtain ⟨st, hst⟩ := stats_ok hne
  have hpos : 1 ≤ data.length := List.length_pos_of_ne_nil hne
  have hpoly : ∀ ty, polynomialAllowedError E data e ty = .ok r → r.data.length ≤ 24 + 8 * data.length := by
    intro ty h
    obtain ⟨c, r', h1, h2, h3⟩ := poly_bounded_cases E data hne ty e st hst
    rw [h] at h1; rw [Except.ok.inj h1, h2]
    rcases h3 with ⟨_, rfl, _⟩ | ⟨_, _, rfl⟩ | ⟨_, _, s, hs, rfl, _⟩
    · exact poly_size _ (by simp [Poly.start, Poly.new]) hl
    · exact poly_size _ (by simp [Poly.start, Poly.new]) hl
    · obtain ⟨k, k1, _, hk⟩ := polyDone_stored hs
      rw [hk]; exact poly_size _ (stored_length_le hpos k1 _) hl
  cases c with
  | fft =>
    obtain ⟨c, r', h1, _, h2, h3⟩ := fft_bounded_cases E hE data hne e st hst
    rw [h] at h1; rw [Except.ok.inj h1, h2]
    rcases h3 with ⟨_, rfl, _⟩ | ⟨_, _, rfl, _⟩ | ⟨_, _, s, ⟨⟨fs, hf, hs⟩, _⟩, i1, i2, rfl, _⟩
    · exact fft_nil_size st _
    · exact fft_nil_size st _
    · rw [hs]; exact fft_trim_size hE _ hl (by omega) hf
  | noop => simp only [Compressor.boundedResults, hst, ok_bind] at h; rw [← Except.ok.inj h]; exact noop_size data hl
  | constant => simp only [Compressor.boundedResults, hst, ok_bind] at h; rw [← Except.ok.inj h]; exact constant_size data st
  | rle => simp only [Compressor.boundedResults, hst, ok_bind] at h; rw [← Except.ok.inj h]; exact rle_size data st hl
  | auto => simp only [Compressor.boundedResults, hst, ok_bind] at h; exact absurd h (by simp)
  | polynomial => simp only [Compressor.boundedResults, hst, ok_bind] at h; exact hpoly _ h
  | idw => simp only [Compressor.boundedResults, hst, ok_bind] at h; exact hpoly _ h

/-- `compress_bounded` stores the payload of `get_compress_bounded_results`. -/
theorem bounded_of_results (E : Ext) (c : Compressor) (data : List F64) (e : F64) {bs : Bytes} (h : c.compressBounded E data e = .ok bs) :
    ∃ r, c.boundedResults E data e = .ok r ∧ r.data = bs := by
  unfold Compressor.compressBounded at h
  obtain ⟨st, hst, h⟩ := bind_ok_iff.1 h
  unfold Compressor.boundedResults
  rw [hst, ok_bind]
  cases c with
  | noop => exact ⟨_, rfl, Except.ok.inj h⟩
  | constant => exact ⟨_, rfl, Except.ok.inj h⟩
  | rle => exact ⟨_, rfl, Except.ok.inj h⟩
  | auto => exact absurd h (by simp)
  | fft => obtain ⟨r, hr, h⟩ := bind_ok_iff.1 h; exact ⟨r, hr, Except.ok.inj h⟩
  | polynomial => obtain ⟨r, hr, h⟩ := bind_ok_iff.1 h; exact ⟨r, hr, Except.ok.inj h⟩
  | idw => obtain ⟨r, hr, h⟩ := bind_ok_iff.1 h; exact ⟨r, hr, Except.ok.inj h⟩

/-- The frame stored by `compressBest` holds the result, on the whole chunk, of the compressor it is tagged with. -/
theorem best_stores (E : Ext) (f g : Frame) (data : List F64) (e : F32) (k : Nat) (h : f.compressBest E data e k = .ok g) :
    ∃ r, g.compressor.boundedResults E data (FP.cvt e) = .ok r ∧ r.data = g.data := by
  have hrun : ∀ {l : List (CResult × Compressor)} {cs : List Compressor}, runAll E data (FP.cvt e) cs = .ok l →
      ∀ x ∈ l, x.2.boundedResults E data (FP.cvt e) = .ok x.1 := by
    intro l cs
    induction cs generalizing l with
    | nil => intro h x hx; rw [runAll] at h; rw [← Except.ok.inj h] at hx; cases hx
    | cons c cs ih =>
      intro h x hx
      rw [runAll] at h
      obtain ⟨r, h1, h⟩ := bind_ok_iff.1 h
      obtain ⟨rs, h2, h⟩ := bind_ok_iff.1 h
      rw [← Except.ok.inj h, List.mem_cons] at hx
      rcases hx with rfl | hx
      · exact h1
      · exact ih h2 x hx
  unfold Frame.compressBest at h
  cases hs : compressionSpeed[k]? with
  | none => rw [hs] at h; exact absurd h (by simp)
  | some m =>
    rw [hs] at h
    simp only at h
    obtain ⟨st, _, h⟩ := bind_ok_iff.1 h
    split_ifs at h with h1 h2
    · obtain ⟨r, hr, h⟩ := bind_ok_iff.1 h
      rw [← Except.ok.inj h]; exact ⟨r, hr, rfl⟩
    · obtain ⟨rs, hrs, h⟩ := bind_ok_iff.1 h
      obtain ⟨b, hb, h⟩ := bind_ok_iff.1 h
      obtain ⟨r, hr, h⟩ := bind_ok_iff.1 h
      rw [← Except.ok.inj h]; exact ⟨r, hr, rfl⟩
    · obtain ⟨rs, hrs, h⟩ := bind_ok_iff.1 h
      obtain ⟨b, hb, h⟩ := bind_ok_iff.1 h
      rw [← Except.ok.inj h]
      have hin : b ∈ rs := by
        split_ifs at hb
        · exact minByLen_mem (unwrapOpt_ok hb)
        · exact List.mem_of_mem_filter (minByLen_mem (unwrapOpt_ok hb))
      exact ⟨b.1, hrun hrs b hin, rfl⟩

/-- C73 at the API: whatever the call (plain, with a compressor, bounded, automatic), the payload of the frame it adds is not larger than what its compressor
allows for the chunk. -/
theorem C73_call (E : Ext) (hE : E.Lawful) (p : Profile) (s : Stream) (op : ChunkOp) (hne : op.chunk ≠ []) (hl : op.chunk.length < 2 ^ 32) (g : Frame)
    (h : op.Adds E p s g) : g.data.length ≤ g.compressor.maxPayload op.chunk := by
  obtain ⟨f, hf, rfl⟩ := adds_inv h
  show f.data.length ≤ f.compressor.maxPayload op.chunk
  cases op with
  | plain d =>
    simp only [ChunkOp.frame, Frame.compress] at hf
    obtain ⟨b, hb, hf⟩ := bind_ok_iff.1 hf
    rw [← Except.ok.inj hf]
    exact compress_size E hE _ d hne hl hb
  | «using» d c =>
    simp only [ChunkOp.frame, Frame.compress] at hf
    obtain ⟨b, hb, hf⟩ := bind_ok_iff.1 hf
    rw [← Except.ok.inj hf]
    exact compress_size E hE _ d hne hl hb
  | bounded d c e k =>
    have hbest : ∀ f0 : Frame, f0.compressBest E d e k = .ok f → f.data.length ≤ f.compressor.maxPayload d := by
      intro f0 h0
      obtain ⟨r, h1, h2⟩ := best_stores E f0 f d e k h0
      rw [← h2]; exact results_size E hE _ d hne hl _ h1
    have hbd : ∀ f0 : Frame, f0.compressBounded E d e = .ok f → f.data.length ≤ f.compressor.maxPayload d := by
      intro f0 h0
      unfold Frame.compressBounded at h0
      obtain ⟨b, hb, h0⟩ := bind_ok_iff.1 h0
      obtain ⟨r, h1, h2⟩ := bounded_of_results E _ d _ hb
      rw [← Except.ok.inj h0]
      dsimp only
      rw [← h2]; exact results_size E hE _ d hne hl _ h1
    cases c <;> simp only [ChunkOp.frame] at hf <;> first | exact hbest _ hf | exact hbd _ hf

theorem runCount_le (d : List F64) : runCount d ≤ d.length := by
  fun_induction runCount d with
  | case1 => simp
  | case2 => simp
  | case3 v w rest ih => rw [List.length_cons]; split_ifs <;> omega

theorem runCount_pos {d : List F64} (h : d ≠ []) : 1 ≤ runCount d := by
  fun_induction runCount d with
  | case1 => exact absurd rfl h
  | case2 => simp
  | case3 v w rest ih => have := ih (by simp); omega

/-- C73 for Auto: when the whole chunk is used for the choice, the payload is never larger than what RLE allows: 14 bytes a run. -/
theorem C73_auto (E : Ext) (hE : E.Lawful) (p : Profile) (s : Stream) (data : List F64) (hne : data ≠ []) (hfin : AllFinite data) (e : F32)
    (he : (FP.zero : F32).le e = true) (speed : Nat) (hsp : speed ≤ 6) (hl : data.length < sampleSize speed) (hl' : data.length < 2 ^ 32) (g : Frame)
    (h : (ChunkOp.bounded data .auto e speed).Adds E p s g) : g.data.length ≤ 7 + 14 * runCount data := by
  obtain ⟨st, hst⟩ := stats_ok hne
  have hr : Produces E .rle data (FP.cvt e) (rleCompressor data st).data FP.zero := by
    refine ⟨rfl, rleCompressor data st, ?_, rfl, rfl⟩
    simp only [Compressor.boundedResults, hst, ok_bind]
  refine le_trans ?_ (rle_size data st hl')
  by_cases hc : ∀ x ∈ data, ∀ y ∈ data, x.val = y.val
  · exact C26_constant_smallest E hE p s data hne hfin hc e speed hsp g h .rle _ _ hr
  · push Not at hc
    obtain ⟨x, hx, y, hy, hxy⟩ := hc
    obtain ⟨_, h2⟩ := C26_smallest E hE p s data hfin x y hx hy hxy e he speed hsp hl g h
    exact (h2 _ _ _ hr (zero_le_cvt he)).1

theorem maxPayload_le (c : Compressor) (data : List F64) : c.maxPayload data ≤ 289 + 14 * data.length := by
  have := runCount_le data
  cases c <;> unfold Compressor.maxPayload <;> dsimp only <;> omega

theorem frame_size_le (g : Frame) {n : Nat} (hs : g.frameSize = 41) (hc : g.sampleCount = n) (hn : n < 2 ^ 32) (hd : g.data.length < 2 ^ 32) :
    g.enc.length ≤ 12 + g.data.length := by
  unfold Frame.enc encVec
  have e1 := encVar_len_le n hn
  have e2 := encVar_len_le g.data.length hd
  have e3 : (encCompressor g.compressor).length = 1 := by cases g.compressor <;> decide
  have e4 : (encVar 41).length = 1 := by decide
  have e5 : ((g.data.map encU8).flatten).length = g.data.length := by
    generalize g.data = d
    induction d with
    | nil => rfl
    | cons b d ih => rw [List.map_cons, List.flatten_cons, List.length_append, ih, encU8_len, List.length_cons]; omega
  simp only [List.length_append, hs, hc, e3, e4, e5]
  omega

theorem frames_size {E : Ext} {a : CompArgs} (hE : E.Lawful) : ∀ {ex : List (Compressor × List F64)} {fs : List Frame},
    (∀ x ∈ ex, x.1 = a.compressor.toCompressor ∧ 0 < x.2.length ∧ x.2.length ≤ 131072) → List.Forall₂ (fun op f => op.frame E = .ok f) (ex.map a.op) fs →
    (((fs.map Frame.close).map Frame.enc).flatten).length ≤ 301 * ex.length + 14 * ((ex.map Prod.snd).flatten).length := by
  intro ex
  induction ex with
  | nil => intro fs _ h; cases h; simp
  | cons x xs ih =>
    intro fs hx h
    rw [List.map_cons] at h
    cases h with
    | @cons _ f _ fs h1 h2 =>
      have := ih (fun y hy => hx y (by simp [hy])) h2
      obtain ⟨_, q2, q3⟩ := hx x (by simp)
      have hadd : (a.op x).Adds E .release Stream.new f.close := adds_of_frame (fun h => by cases h) h1
      have hp := C73_call E hE .release Stream.new (a.op x) (by rw [op_chunk]; exact List.ne_nil_of_length_pos q2) (by rw [op_chunk]; omega) _ hadd
      rw [op_chunk] at hp
      have hm := maxPayload_le f.close.compressor x.2
      have hcnt : f.close.sampleCount = x.2.length := by
        have := op_frame_count h1
        rw [op_chunk] at this; exact this
      have hsz := frame_size_le f.close (n := x.2.length) rfl hcnt (by omega) (by omega)
      simp only [List.map_cons, List.flatten_cons, List.length_append, List.length_cons]
      omega

/-- C73 for a file: a `.bro` file has at most 14 bytes for each finite sample, 301 for each of its frames, of which there are at most one for every 131072 samples and
nine more, and 18. -/
theorem C73_file (E : Ext) (hE : E.Lawful) (p : Profile) (data : List F64) (a : CompArgs) (ha : a.Valid) (hp : FewEnough p data) :
    ∃ bs, compressData E p data a = .ok bs ∧
      bs.length ≤ 14 * (finiteSamples data).length + 301 * ((finiteSamples data).length / 131072 + 9) + 18 := by
  obtain ⟨ex, s, h1, h2, h3, h4, _, hn⟩ := pipeline_len E hE p data a ha hp
  refine ⟨_, h2, ?_⟩
  obtain ⟨-, -, -, fs, h6, h7⟩ := built_ok h1
  have hfr := frames_size hE (fun x hx => ⟨(h4 x hx).1, (h4 x hx).2.1, (h4 x hx).2.2.1⟩) h7
  rw [h3] at hfr
  have hh : s.header.toBytes.length = 9 := by unfold Header.toBytes brro; rw [List.length_append, List.length_append, leBytes_length]; rfl
  unfold Stream.toBytes encVec
  rw [List.length_append, List.length_append, hh, h6]
  have := C09_size (fs.map Frame.close).length
  have : (encVar (fs.map Frame.close).length).length ≤ 9 := by rw [this]; unfold wireSize; split_ifs <;> omega
  have := Nat.mul_le_mul_left 301 hn
  omega

/-- C73 refuted as "never larger than the raw samples" (8 bytes each): `n` samples of `2^60` take more than `9 n` bytes with Noop, whatever `n`. -/
theorem C73_refuted_noop (E : Ext) (n : Nat) (hn : 1 ≤ n) : ∃ (data : List F64) (bs : Bytes), data.length = n ∧ Compressor.noop.compress E data = .ok bs ∧ 9 * n < bs.length := by
  obtain ⟨st, hst⟩ := stats_ok (data := List.replicate n (F64.lit (2 ^ 60))) (by rw [Ne, List.replicate_eq_nil_iff]; omega)
  refine ⟨List.replicate n (F64.lit (2 ^ 60)), noop (List.replicate n (F64.lit (2 ^ 60))), by simp, by simp only [Compressor.compress, hst, ok_bind], ?_⟩
  unfold noop Noop.enc Noop.optimize encVec
  dsimp only
  have h9 : (encSigned (F64.toI64 (FP.round (F64.lit (2 ^ 60))))).length = 9 := by decide +kernel
  rw [List.map_replicate, List.map_replicate, List.length_append, List.length_append, encU8_len, List.length_flatten, List.map_replicate, h9]
  have e : (List.replicate n 9).sum = 9 * n := by rw [List.sum_replicate_nat, Nat.mul_comm]
  rw [e]
  omega

/-- And with RLE, the two samples 1.5 and 2.5 take 23 bytes. -/
theorem C73_refuted_rle (E : Ext) : ∃ bs, Compressor.rle.compress E [FP.ofBits 0x3FF8000000000000, FP.ofBits 0x4004000000000000] = .ok bs ∧ bs.length = 23 := by
  have h : okAnd (DataStats.new [FP.ofBits 0x3FF8000000000000, FP.ofBits 0x4004000000000000]) (fun st =>
      (rleCompressor [FP.ofBits 0x3FF8000000000000, FP.ofBits 0x4004000000000000] st).data.length = 23) = true := by decide +kernel
  obtain ⟨st, h1, h2⟩ := okAnd_iff.1 h
  refine ⟨(rleCompressor [FP.ofBits 0x3FF8000000000000, FP.ofBits 0x4004000000000000] st).data, ?_, of_decide_eq_true h2⟩
  simp only [Compressor.compress, h1, ok_bind]

/-- Sixteen samples of one value and one of another: 2 runs, at most 35 bytes with RLE; the bound for FFT does not grow below ten samples. -/
example : runCount (List.replicate 16 (F64.lit 3) ++ [F64.lit 4]) = 2 ∧ Compressor.rle.maxPayload (List.replicate 16 (F64.lit 3) ++ [F64.lit 4]) = 35 := by decide +kernel

end Atsc
