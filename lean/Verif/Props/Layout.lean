import Verif.Spec.Layout
import Verif.Props.Cli
/- C80: how many samples go into each frame, and how many frames there are; C81: what one frame holds does not depend on the others;
C82: samples that are not finite leave no trace. -/
namespace Atsc
open FP

/-! ### C80 -/

theorem frameSizes_full {n : Nat} (h : 131072 ≤ n) : frameSizes n = 131072 :: frameSizes (n - 131072) := by
  obtain ⟨m, rfl⟩ := Nat.exists_eq_add_of_le' h
  have e1 : (m + 131072) / 131072 = m / 131072 + 1 := by omega
  have e2 : (m + 131072) % 512 = m % 512 := by omega
  have e3 : [65536, 32768, 16384, 8192, 4096, 2048, 1024, 512].filter (fun b => b ≤ (m + 131072) % (2 * b)) =
      [65536, 32768, 16384, 8192, 4096, 2048, 1024, 512].filter (fun b => b ≤ m % (2 * b)) := by
    apply List.filter_congr
    intro b hb
    have : (m + 131072) % (2 * b) = m % (2 * b) := by
      simp only [List.mem_cons, List.not_mem_nil, or_false] at hb
      rcases hb with rfl | rfl | rfl | rfl | rfl | rfl | rfl | rfl <;> omega
    rw [this]
  unfold frameSizes
  rw [Nat.add_sub_cancel, e1, e2, e3, List.replicate_succ, List.cons_append, List.cons_append]

theorem frameSizes_small {n : Nat} (h0 : 0 < n) (h : n ≤ 512) : frameSizes n = [n] := by
  unfold frameSizes
  rw [Nat.div_eq_of_lt (by omega), List.replicate_zero, List.nil_append]
  by_cases h5 : n = 512
  · subst h5; decide
  · rw [List.filter_eq_nil_iff.2, List.nil_append, if_neg (by omega), Nat.mod_eq_of_lt (by omega)]
    intro b hb
    simp only [List.mem_cons, List.not_mem_nil, or_false] at hb
    simp only [decide_eq_true_eq]
    rcases hb with rfl | rfl | rfl | rfl | rfl | rfl | rfl | rfl <;> omega

theorem filter_split {l l1 l2 : List Nat} {b n m : Nat} (hl : l = l1 ++ b :: l2) (h1 : ∀ x ∈ l1, ¬ x ≤ n % (2 * x)) (h1' : ∀ x ∈ l1, ¬ x ≤ m % (2 * x))
    (h2 : b ≤ n % (2 * b)) (h2' : ¬ b ≤ m % (2 * b)) (h3 : ∀ x ∈ l2, n % (2 * x) = m % (2 * x)) :
    l.filter (fun b => b ≤ n % (2 * b)) = b :: l.filter (fun b => b ≤ m % (2 * b)) := by
  subst hl
  have f1 : l1.filter (fun b => b ≤ n % (2 * b)) = [] := List.filter_eq_nil_iff.2 (by simpa using h1)
  have f2 : l1.filter (fun b => b ≤ m % (2 * b)) = [] := List.filter_eq_nil_iff.2 (by simpa using h1')
  have f3 : l2.filter (fun b => b ≤ n % (2 * b)) = l2.filter (fun b => b ≤ m % (2 * b)) := List.filter_congr fun x hx => by rw [h3 x hx]
  rw [List.filter_append, List.filter_append, List.filter_cons_of_pos (by simpa using h2), List.filter_cons_of_neg (by simpa using h2'), f1, f2, f3,
    List.nil_append, List.nil_append]

theorem frameSizes_power {n b : Nat} (hb : b ∈ [65536, 32768, 16384, 8192, 4096, 2048, 1024, 512]) (h1 : b ≤ n) (h2 : n < 2 * b) :
    frameSizes n = b :: frameSizes (n - b) := by
  have e1 : n / 131072 = 0 ∧ (n - b) / 131072 = 0 ∧ (n - b) % 512 = n % 512 := by
    simp only [List.mem_cons, List.not_mem_nil, or_false] at hb
    rcases hb with rfl | rfl | rfl | rfl | rfl | rfl | rfl | rfl <;> omega
  unfold frameSizes
  rw [e1.1, e1.2.1, e1.2.2, List.replicate_zero, List.nil_append, List.nil_append, ← List.cons_append]
  congr 1
  simp only [List.mem_cons, List.not_mem_nil, or_false] at hb
  rcases hb with rfl | rfl | rfl | rfl | rfl | rfl | rfl | rfl
  case inl =>
    refine filter_split (l1 := []) (l2 := [32768, 16384, 8192, 4096, 2048, 1024, 512]) rfl ?_ ?_ ?_ ?_ ?_ <;>
      (try simp only [List.mem_cons, List.not_mem_nil, or_false, false_imp_iff, implies_true, forall_eq_or_imp, forall_eq]) <;> omega
  case inr.inl =>
    refine filter_split (l1 := [65536]) (l2 := [16384, 8192, 4096, 2048, 1024, 512]) rfl ?_ ?_ ?_ ?_ ?_ <;>
      (try simp only [List.mem_cons, List.not_mem_nil, or_false, false_imp_iff, implies_true, forall_eq_or_imp, forall_eq]) <;> omega
  case inr.inr.inl =>
    refine filter_split (l1 := [65536, 32768]) (l2 := [8192, 4096, 2048, 1024, 512]) rfl ?_ ?_ ?_ ?_ ?_ <;>
      (try simp only [List.mem_cons, List.not_mem_nil, or_false, false_imp_iff, implies_true, forall_eq_or_imp, forall_eq]) <;> omega
  case inr.inr.inr.inl =>
    refine filter_split (l1 := [65536, 32768, 16384]) (l2 := [4096, 2048, 1024, 512]) rfl ?_ ?_ ?_ ?_ ?_ <;>
      (try simp only [List.mem_cons, List.not_mem_nil, or_false, false_imp_iff, implies_true, forall_eq_or_imp, forall_eq]) <;> omega
  case inr.inr.inr.inr.inl =>
    refine filter_split (l1 := [65536, 32768, 16384, 8192]) (l2 := [2048, 1024, 512]) rfl ?_ ?_ ?_ ?_ ?_ <;>
      (try simp only [List.mem_cons, List.not_mem_nil, or_false, false_imp_iff, implies_true, forall_eq_or_imp, forall_eq]) <;> omega
  case inr.inr.inr.inr.inr.inl =>
    refine filter_split (l1 := [65536, 32768, 16384, 8192, 4096]) (l2 := [1024, 512]) rfl ?_ ?_ ?_ ?_ ?_ <;>
      (try simp only [List.mem_cons, List.not_mem_nil, or_false, false_imp_iff, implies_true, forall_eq_or_imp, forall_eq]) <;> omega
  case inr.inr.inr.inr.inr.inr.inl =>
    refine filter_split (l1 := [65536, 32768, 16384, 8192, 4096, 2048]) (l2 := [512]) rfl ?_ ?_ ?_ ?_ ?_ <;>
      (try simp only [List.mem_cons, List.not_mem_nil, or_false, false_imp_iff, implies_true, forall_eq_or_imp, forall_eq]) <;> omega
  case inr.inr.inr.inr.inr.inr.inr =>
    refine filter_split (l1 := [65536, 32768, 16384, 8192, 4096, 2048, 1024]) (l2 := []) rfl ?_ ?_ ?_ ?_ ?_ <;>
      (try simp only [List.mem_cons, List.not_mem_nil, or_false, false_imp_iff, implies_true, forall_eq_or_imp, forall_eq]) <;> omega

theorem chunkLoop_eq : ∀ (fuel len : Nat), len ≤ fuel → chunkLoop fuel len = frameSizes len := by
  intro fuel
  induction fuel with
  | zero =>
    intro len h
    have : len = 0 := by omega
    subst this; decide
  | succ f ih =>
    intro len h
    simp only [chunkLoop]
    split_ifs with h0 h1 h2
    · subst h0; decide
    · unfold maxFrameSize at *
      rw [frameSizes_full h1, ih _ (by omega)]
    · unfold minFrameSize at *
      rw [frameSizes_small (by omega) h2]
    · obtain ⟨⟨p1, k, p2⟩, _⟩ := C34_prev_power_of_two len (by omega)
      have p3 := C34_more_than_half len (by omega)
      unfold maxFrameSize at h1
      unfold minFrameSize at h2
      rw [ih _ (by omega)]
      generalize prevPowerOfTwo len = q at *
      refine (frameSizes_power ?_ p1 p3).symm
      have k1 : k < 17 := by
        by_contra hk
        have : 2 ^ 17 ≤ 2 ^ k := Nat.pow_le_pow_right (by decide) (by omega)
        omega
      have k2 : 9 ≤ k := by
        by_contra hk
        have : 2 ^ k ≤ 2 ^ 8 := Nat.pow_le_pow_right (by decide) (by omega)
        omega
      subst p2
      interval_cases k <;> decide

theorem frameSizes_length (n : Nat) : (frameSizes n).length ≤ n / 131072 + 9 := by
  unfold frameSizes
  rw [List.length_append, List.length_append, List.length_replicate]
  have := List.length_filter_le (fun b => decide (b ≤ n % (2 * b))) [65536, 32768, 16384, 8192, 4096, 2048, 1024, 512]
  have h2 : (if n % 512 = 0 then ([] : List Nat) else [n % 512]).length ≤ 1 := by split_ifs <;> simp
  simp only [List.length_cons, List.length_nil] at this
  omega

theorem cutBy_flatten {α : Type} : ∀ (L : List (List α)), cutBy (L.map List.length) L.flatten = L := by
  intro L
  induction L with
  | nil => rfl
  | cons a t ih => rw [List.map_cons, List.flatten_cons, cutBy, List.take_left, List.drop_left, ih]

/-- The planner's cut is the expected one. -/
theorem plan_layout {data : List F64} {c : Compressor} {p : Plan} {ex : List (Compressor × List F64)} (hp : Plan.plan data = .ok p)
    (he : (p.setCompressor c).getExecution = .ok ex) : ex = (layout (finiteSamples data)).map fun l => (c, l) := by
  obtain ⟨p', ex', h1, h2, h3, h4, -, -, -, h8⟩ := C35_partition data c
  rw [hp] at h1; injection h1 with h1; subst h1
  rw [he] at h2; injection h2 with h2; subst h2
  have hpl : p.chunkSizes = chunkSizes (cleanData data).length := by
    unfold Plan.plan at hp
    obtain ⟨cs, _, hp⟩ := bind_ok_iff.1 hp
    rw [← Except.ok.inj hp]
  rw [hpl, C36_clean, chunkSizes, chunkLoop_eq _ _ (le_refl _)] at h8
  have h3' : (ex.map Prod.snd).flatten = finiteSamples data := h3
  have hl : ex.map Prod.snd = layout (finiteSamples data) := by
    unfold layout
    rw [show frameSizes (finiteSamples data).length = _ from h8, ← h3', show ex.map (fun x => x.2.length) = (ex.map Prod.snd).map List.length by
      rw [List.map_map]; rfl, cutBy_flatten]
  rw [← hl, List.map_map]
  conv_lhs => rw [← List.map_id ex]
  refine List.map_congr_left fun x hx => ?_
  rw [Function.comp, ← (h4 x hx).1]; rfl

/-- What a successful compression wrote. -/
theorem compress_inv {E : Ext} {p : Profile} {data : List F64} {a : CompArgs} {bs : Bytes} (h : compressData E p data a = .ok bs) :
    ∃ s, bs = s.toBytes ∧ Built E p (((layout (finiteSamples data)).map fun l => (a.compressor.toCompressor, l)).map a.op) s := by
  unfold compressData at h
  obtain ⟨pl, h1, h⟩ := bind_ok_iff.1 h
  obtain ⟨ex, h2, h⟩ := bind_ok_iff.1 h
  obtain ⟨s, h3, h⟩ := bind_ok_iff.1 h
  refine ⟨s, (Except.ok.inj h).symm, ?_⟩
  rw [← plan_layout h1 h2]
  rw [compressLoop_eq] at h3
  exact h3

theorem cutBy_length {α : Type} : ∀ (zs : List Nat) (l : List α), zs.sum ≤ l.length → (cutBy zs l).map List.length = zs ∧ (cutBy zs l).flatten = l.take zs.sum := by
  intro zs
  induction zs with
  | nil => intro l _; exact ⟨rfl, by simp [cutBy]⟩
  | cons z t ih =>
    intro l h
    rw [List.sum_cons] at h
    obtain ⟨i1, i2⟩ := ih (l.drop z) (by rw [List.length_drop]; omega)
    refine ⟨?_, ?_⟩
    · rw [cutBy, List.map_cons, i1, List.length_take, Nat.min_eq_left (by omega)]
    · rw [cutBy, List.flatten_cons, i2, List.sum_cons, List.take_add]

theorem frameSizes_sum (n : Nat) : (frameSizes n).sum = n ∧ ∀ z ∈ frameSizes n, 0 < z ∧ z ≤ 131072 := by
  rw [← chunkLoop_eq n n (le_refl _)]
  obtain ⟨h1, h2, -⟩ := chunkLoop_spec n n (le_refl _)
  exact ⟨h1, fun z hz => ⟨(h2 z hz).1, (h2 z hz).2.1⟩⟩

theorem layout_lengths {α : Type} (l : List α) : (layout l).map List.length = frameSizes l.length ∧ (layout l).flatten = l := by
  obtain ⟨h1, h2⟩ := cutBy_length (frameSizes l.length) l (le_of_eq (frameSizes_sum _).1)
  refine ⟨h1, ?_⟩
  rw [(frameSizes_sum _).1, List.take_length] at h2
  exact h2

theorem layout_small {α : Type} {l c : List α} (h : c ∈ layout l) : 0 < c.length ∧ c.length ≤ 131072 := by
  have := List.mem_map_of_mem (f := List.length) h
  rw [(layout_lengths l).1] at this
  exact (frameSizes_sum _).2 _ this

theorem sum_le_bound {b : Nat} : ∀ (l : List Nat), (∀ z ∈ l, z ≤ b) → l.sum ≤ b * l.length := by
  intro l
  induction l with
  | nil => intro _; simp
  | cons a t ih =>
    intro h
    rw [List.sum_cons, List.length_cons, Nat.mul_succ]
    have := ih fun z hz => h z (by simp [hz])
    have := h a (by simp)
    omega

/-- C80: the planner cuts the finite samples into frames of exactly the expected sizes. -/
theorem C80_plan (data : List F64) (c : Compressor) :
    ∃ p ex, Plan.plan data = .ok p ∧ (p.setCompressor c).getExecution = .ok ex ∧ p.chunkSizes = frameSizes (finiteSamples data).length ∧
      ex.map Prod.snd = layout (finiteSamples data) := by
  obtain ⟨p, ex, h1, h2, -, -, -, -, -, h8⟩ := C35_partition data c
  have := plan_layout h1 h2
  refine ⟨p, ex, h1, h2, ?_, ?_⟩
  · rw [h8, this, ← (layout_lengths _).1, List.map_map]; rfl
  · rw [this, List.map_map]; simp [Function.comp_def]

/-- C80 in the file: reading back what was compressed, the frames count exactly the expected numbers of samples, and the header counts the frames,
modulo 256. -/
theorem C80_file (E : Ext) (p : Profile) (data : List F64) (a : CompArgs) (bs : Bytes) (h : compressData E p data a = .ok bs) (hl : bs.length < 2 ^ 64) :
    ∃ s, Stream.fromBytes bs = .ok s ∧ s.frames.map (·.sampleCount) = frameSizes (finiteSamples data).length ∧
      s.header.frameCount.toNat = (frameSizes (finiteSamples data).length).length % 256 := by
  obtain ⟨s, rfl, hb⟩ := compress_inv h
  have hfit := pipeline_fits hb (fun x hx => by
    obtain ⟨l, hl, rfl⟩ := List.mem_map.1 hx
    exact (layout_small hl).2) hl
  obtain ⟨hv, hc, -, fs, h6, h7⟩ := built_ok hb
  refine ⟨s, ?_, ?_, ?_⟩
  · have := fromBytes_toBytes_append hfit (by rw [hv]; decide) []
    rw [List.append_nil] at this
    exact this
  · rw [h6, List.map_map, ← (layout_lengths _).1]
    clear h6 hc hv hfit hb h hl
    generalize layout (finiteSamples data) = L at h7
    induction L generalizing fs with
    | nil => cases h7; rfl
    | cons c t ih =>
      cases h7 with
      | cons q1 q2 =>
        rw [List.map_cons, List.map_cons, ih _ q2]
        congr 1
        have := op_frame_count q1
        rw [op_chunk] at this
        exact this
  · rw [hc, List.length_map, List.length_map, ← (layout_lengths (finiteSamples data)).1, List.length_map]

/-- C80: hence up to 247 * 131072 - 1 finite samples (more than 32 million) the header's frame count is the number of frames, and beyond 255 * 131072
samples it is not. -/
theorem C80_count (E : Ext) (p : Profile) (data : List F64) (a : CompArgs) (bs : Bytes) (h : compressData E p data a = .ok bs) (hl : bs.length < 2 ^ 64) :
    ∃ s, Stream.fromBytes bs = .ok s ∧ s.frames.length ≤ (finiteSamples data).length / 131072 + 9 ∧
      (finiteSamples data).length ≤ 131072 * s.frames.length ∧
      ((finiteSamples data).length < 247 * 131072 → s.header.frameCount.toNat = s.frames.length) ∧
      (255 * 131072 < (finiteSamples data).length → s.header.frameCount.toNat ≠ s.frames.length) := by
  obtain ⟨s, h1, h2, h3⟩ := C80_file E p data a bs h hl
  have hn : s.frames.length = (frameSizes (finiteSamples data).length).length := by rw [← h2, List.length_map]
  have hle := frameSizes_length (finiteSamples data).length
  have hge : (finiteSamples data).length ≤ 131072 * (frameSizes (finiteSamples data).length).length := by
    have hs := frameSizes_sum (finiteSamples data).length
    conv_lhs => rw [← hs.1]
    exact sum_le_bound _ fun z hz => (hs.2 z hz).2
  rw [← hn] at h3 hle hge
  exact ⟨s, h1, hle, hge, fun hlt => by omega, fun hgt => by omega⟩

set_option maxRecDepth 20000 in
/-- 700 samples: one frame of 512 and one of 188. -/
example : okAnd (compressData Ext.dummy .debug (List.replicate 700 (F64.lit 5)) { compressor := .rle, error := 3, level := 0 } >>= Stream.fromBytes)
    (fun s => s.frames.map (·.sampleCount) = [512, 188] ∧ s.header.frameCount = 2) = true := by
  decide +kernel

/-! ### C81 -/

/-- One frame's part of a decoded series, given the sizes of the frames before it and its own size. -/
theorem concat_part {E : Ext} {p : Profile} {a : CompArgs} {c : Compressor} : ∀ (L : List (List F64)) (out : List F64),
    (∀ l ∈ L, ∃ o, (a.op (c, l)).alone E p = .ok o ∧ o.length = l.length) →
    concatOk (ChunkOp.alone E p) ((L.map fun l => (c, l)).map a.op) = .ok out →
    ∃ outs : List (List F64), out = outs.flatten ∧ List.Forall₂ (fun l o => (a.op (c, l)).alone E p = .ok o ∧ o.length = l.length) L outs := by
  intro L
  induction L with
  | nil => intro out _ h; exact ⟨[], (Except.ok.inj h).symm, .nil⟩
  | cons l t ih =>
    intro out hl h
    obtain ⟨o, h1, h2⟩ := hl l (by simp)
    rw [List.map_cons, List.map_cons, concatOk, h1] at h
    cases h3 : concatOk (ChunkOp.alone E p) ((t.map fun l => (c, l)).map a.op) with
    | error e => rw [h3] at h; cases h
    | ok o' =>
      rw [h3] at h
      obtain ⟨outs, e1, e2⟩ := ih o' (fun l hl' => hl l (by simp [hl'])) h3
      exact ⟨o :: outs, by rw [List.flatten_cons, ← e1]; exact (Except.ok.inj h).symm, .cons ⟨h1, h2⟩ e2⟩

/-- What a compressed and decompressed series is made of: one piece per expected piece of the input, of the same length, and depending on that piece only. -/
theorem decoded_pieces {E : Ext} (hE : E.Lawful) {p : Profile} {data : List F64} {a : CompArgs} (ha : a.Valid) {bs : Bytes} {out : List F64}
    (h : compressData E p data a = .ok bs) (hl : bs.length < 2 ^ 64) (hd : decompressData E bs = .ok out) :
    ∃ outs : List (List F64), out = outs.flatten ∧
      List.Forall₂ (fun l o => (a.op (a.compressor.toCompressor, l)).alone E p = .ok o ∧ o.length = l.length) (layout (finiteSamples data)) outs := by
  obtain ⟨s, rfl, hb⟩ := compress_inv h
  rw [decompressData_ok hb (fun x hx => by
    obtain ⟨l, hl, rfl⟩ := List.mem_map.1 hx
    exact (layout_small hl).2) hl] at hd
  refine concat_part _ _ (fun l hl' => ?_) hd
  have hfin : AllFinite l := by
    intro y hy
    have : y ∈ (layout (finiteSamples data)).flatten := List.mem_flatten.2 ⟨l, hl', hy⟩
    rw [(layout_lengths _).2] at this
    exact (List.mem_filter.1 this).2
  have hsz := layout_small hl'
  have hv : (a.op (a.compressor.toCompressor, l)).Valid := by
    refine ⟨by rw [op_chunk]; exact List.ne_nil_of_length_pos hsz.1, by rw [op_chunk]; dsimp only; omega, ?_⟩
    · unfold CompArgs.op
      cases hc : a.compressor <;> simp only [CompressorType.toCompressor] <;>
        first | exact fun _ => ⟨bound_nonneg ha.1, ha.2⟩ | decide
  obtain ⟨o, q1, q2⟩ := C07_chunk_count E hE p _ hv
  rw [op_chunk] at q2
  exact ⟨o, q1, q2⟩

theorem cutBy_append {α : Type} : ∀ (zs ys : List Nat) (l : List α), cutBy (zs ++ ys) l = cutBy zs l ++ cutBy ys (l.drop zs.sum) := by
  intro zs
  induction zs with
  | nil => intro ys l; simp [cutBy]
  | cons z t ih => intro ys l; rw [List.cons_append, cutBy, cutBy, ih, List.cons_append, List.sum_cons, List.drop_drop]

/-- Two decoded series agree on one frame whenever the inputs do. -/
theorem piece_eq {R : List F64 → List F64 → Prop} (hR : ∀ l o o', R l o → R l o' → o = o') (hlen : ∀ l o, R l o → o.length = l.length) (pre : List Nat) (z : Nat)
    (post post' : List Nat) (fa fb : List F64) (oa ob : List (List F64)) (sa : pre.sum + z ≤ fa.length) (sb : pre.sum + z ≤ fb.length)
    (ha : List.Forall₂ R (cutBy (pre ++ z :: post) fa) oa) (hb : List.Forall₂ R (cutBy (pre ++ z :: post') fb) ob)
    (heq : (fa.drop pre.sum).take z = (fb.drop pre.sum).take z) :
    (oa.flatten.drop pre.sum).take z = (ob.flatten.drop pre.sum).take z := by
  have key : ∀ (post : List Nat) (fa : List F64) (oa : List (List F64)), pre.sum + z ≤ fa.length → List.Forall₂ R (cutBy (pre ++ z :: post) fa) oa →
      R ((fa.drop pre.sum).take z) ((oa.flatten.drop pre.sum).take z) := by
    clear ha hb heq sa sb
    induction pre with
    | nil =>
      intro post fa oa sa ha
      rw [List.nil_append, cutBy] at ha
      cases ha with
      | cons h1 h2 =>
        have hl := hlen _ _ h1
        rw [List.sum_nil, Nat.zero_add] at sa
        rename_i o os
        rw [List.length_take, Nat.min_eq_left sa] at hl
        have ho : o.take z = o := List.take_of_length_le (by omega)
        rw [List.sum_nil, List.drop_zero, List.drop_zero, List.flatten_cons, List.take_append_of_le_length (by omega), ho]
        exact h1
    | cons y t ih =>
      intro post fa oa sa ha
      rw [List.cons_append, cutBy] at ha
      cases ha with
      | cons h1 h2 =>
        rename_i o os
        have hl := hlen _ _ h1
        rw [List.sum_cons] at sa
        rw [List.length_take, Nat.min_eq_left (by omega)] at hl
        have := ih post (fa.drop y) os (by rw [List.length_drop]; omega) h2
        rw [List.drop_drop] at this
        have ho : o.drop (y + t.sum) = [] := List.drop_of_length_le (by omega)
        rw [List.sum_cons, List.flatten_cons, List.drop_append, ho, List.nil_append, hl, Nat.add_sub_cancel_left]
        exact this
  have k1 := key post fa oa sa ha
  have k2 := key post' fb ob sb hb
  rw [heq] at k1
  exact hR _ _ _ k1 k2

/-- C81, one frame: if two series of the same number of finite samples agree on the samples of one frame, the decoded series agree there, whatever the
other frames hold. -/
theorem C81_frame (E : Ext) (hE : E.Lawful) (p : Profile) (data data' : List F64) (a : CompArgs) (ha : a.Valid) (bs bs' : Bytes) (out out' : List F64)
    (h : compressData E p data a = .ok bs) (h' : compressData E p data' a = .ok bs') (hl : bs.length < 2 ^ 64) (hl' : bs'.length < 2 ^ 64)
    (hd : decompressData E bs = .ok out) (hd' : decompressData E bs' = .ok out')
    (hlen : (finiteSamples data').length = (finiteSamples data).length)
    (pre post : List Nat) (z : Nat) (hz : frameSizes (finiteSamples data).length = pre ++ z :: post)
    (heq : ((finiteSamples data).drop pre.sum).take z = ((finiteSamples data').drop pre.sum).take z) :
    (out.drop pre.sum).take z = (out'.drop pre.sum).take z := by
  obtain ⟨oa, rfl, fa⟩ := decoded_pieces hE ha h hl hd
  obtain ⟨ob, rfl, fb⟩ := decoded_pieces hE ha h' hl' hd'
  unfold layout at fa fb
  rw [hlen] at fb
  rw [hz] at fa fb
  have hs := (frameSizes_sum (finiteSamples data).length).1
  rw [hz, List.sum_append, List.sum_cons] at hs
  exact piece_eq (fun l o o' q q' => Except.ok.inj (q.1.symm.trans q'.1)) (fun l o q => q.2) pre z post post _ _ oa ob (by omega) (by omega) fa fb heq

/-- Where a position lies in a list of frame sizes. -/
theorem sizes_locate : ∀ (zs : List Nat) (j : Nat), j < zs.sum → ∃ pre z post, zs = pre ++ z :: post ∧ pre.sum ≤ j ∧ j < pre.sum + z := by
  intro zs
  induction zs with
  | nil => intro j h; simp at h
  | cons z t ih =>
    intro j h
    rw [List.sum_cons] at h
    by_cases hj : j < z
    · exact ⟨[], z, t, rfl, by simp, by simpa using hj⟩
    · obtain ⟨pre, y, post, e1, e2, e3⟩ := ih (j - z) (by omega)
      refine ⟨z :: pre, y, post, by rw [e1]; rfl, ?_, ?_⟩ <;> rw [List.sum_cons] <;> omega

theorem out_length {E : Ext} (hE : E.Lawful) {p : Profile} {data : List F64} {a : CompArgs} (ha : a.Valid) {bs : Bytes} {out : List F64}
    (h : compressData E p data a = .ok bs) (hl : bs.length < 2 ^ 64) (hd : decompressData E bs = .ok out) : out.length = (finiteSamples data).length := by
  obtain ⟨oa, rfl, fa⟩ := decoded_pieces hE ha h hl hd
  rw [← (layout_lengths (finiteSamples data)).2]
  generalize layout (finiteSamples data) = L at fa
  clear h hl hd
  induction fa with
  | nil => rfl
  | cons q _ ih => rw [List.flatten_cons, List.flatten_cons, List.length_append, List.length_append, ih, q.2]

theorem window_get {α : Type} {l l' : List α} {o z j : Nat} (h : (l.drop o).take z = (l'.drop o).take z) (h1 : o ≤ j) (h2 : j < o + z) : l[j]? = l'[j]? := by
  have := congrArg (fun q => q[j - o]?) h
  simp only [List.getElem?_take, List.getElem?_drop, if_pos (show j - o < z by omega)] at this
  rw [show o + (j - o) = j by omega] at this
  exact this

theorem window_ext {α : Type} {l l' : List α} {o z : Nat} (h : ∀ j, o ≤ j → j < o + z → l[j]? = l'[j]?) : (l.drop o).take z = (l'.drop o).take z := by
  apply List.ext_getElem?
  intro i
  simp only [List.getElem?_take, List.getElem?_drop]
  split_ifs with hi
  · exact h _ (by omega) (by omega)
  · rfl

/-- C81: changing samples inside one frame changes nothing outside it. If two series have the same number of finite samples and agree at every position
outside the frame `[o, o + z)`, then so do the decoded series. -/
theorem C81_edit (E : Ext) (hE : E.Lawful) (p : Profile) (data data' : List F64) (a : CompArgs) (ha : a.Valid) (bs bs' : Bytes) (out out' : List F64)
    (h : compressData E p data a = .ok bs) (h' : compressData E p data' a = .ok bs') (hl : bs.length < 2 ^ 64) (hl' : bs'.length < 2 ^ 64)
    (hd : decompressData E bs = .ok out) (hd' : decompressData E bs' = .ok out')
    (hlen : (finiteSamples data').length = (finiteSamples data).length)
    (pre post : List Nat) (z : Nat) (hz : frameSizes (finiteSamples data).length = pre ++ z :: post)
    (heq : ∀ j, j < pre.sum ∨ pre.sum + z ≤ j → (finiteSamples data)[j]? = (finiteSamples data')[j]?) :
    ∀ j, j < pre.sum ∨ pre.sum + z ≤ j → out[j]? = out'[j]? := by
  intro j hj
  have l1 := out_length hE ha h hl hd
  have l2 := out_length hE ha h' hl' hd'
  by_cases hjn : j < (finiteSamples data).length
  · have hs := (frameSizes_sum (finiteSamples data).length).1
    obtain ⟨pre', z', post', e1, e2, e3⟩ := sizes_locate (frameSizes (finiteSamples data).length) j (by omega)
    refine window_get (C81_frame E hE p data data' a ha bs bs' out out' h h' hl hl' hd hd' hlen pre' post' z' e1 (window_ext fun i i1 i2 => heq i ?_)) e2 e3
    -- the frame holding `j` is another frame, so it does not overlap
    rw [e1] at hz
    rcases List.append_eq_append_iff.1 hz with ⟨t, q1, q2⟩ | ⟨t, q1, q2⟩
    · cases t with
      | nil =>
        rw [List.nil_append] at q2
        rw [List.append_nil] at q1
        injection q2 with q2 _
        rw [q1, ← q2] at hj
        omega
      | cons y t =>
        rw [List.cons_append] at q2
        injection q2 with q2 q3
        rw [q1, List.sum_append, List.sum_cons]
        left; omega
    · cases t with
      | nil =>
        rw [List.nil_append] at q2
        rw [List.append_nil] at q1
        injection q2 with q2 _
        rw [← q1, q2] at hj
        omega
      | cons y t =>
        rw [List.cons_append] at q2
        injection q2 with q2 q3
        rw [q1, List.sum_append, List.sum_cons] at i1
        right; omega
  · rw [List.getElem?_eq_none (by omega), List.getElem?_eq_none (by omega)]

theorem frameSizes_multiple : ∀ (k n : Nat), k * 131072 ≤ n → frameSizes n = List.replicate k 131072 ++ frameSizes (n - k * 131072) := by
  intro k
  induction k with
  | zero => intro n _; simp
  | succ k ih =>
    intro n h
    have e : n - 131072 - k * 131072 = n - (k + 1) * 131072 := by omega
    have h' : k * 131072 + 131072 ≤ n := by rw [Nat.add_mul, Nat.one_mul] at h; exact h
    have e2 := ih (n - 131072) (Nat.le_sub_of_add_le h')
    rw [e] at e2
    generalize frameSizes (n - (k + 1) * 131072) = r at *
    rw [frameSizes_full (le_trans (Nat.le_add_left _ _) h'), e2]
    exact (List.cons_append).symm

/-- C81, appending: the decoded samples of the full frames at the start of a series do not depend on what follows. If two series agree on their first
`131072 k` finite samples, so do the decoded series. -/
theorem C81_append (E : Ext) (hE : E.Lawful) (p : Profile) (data data' : List F64) (a : CompArgs) (ha : a.Valid) (bs bs' : Bytes) (out out' : List F64)
    (h : compressData E p data a = .ok bs) (h' : compressData E p data' a = .ok bs') (hl : bs.length < 2 ^ 64) (hl' : bs'.length < 2 ^ 64)
    (hd : decompressData E bs = .ok out) (hd' : decompressData E bs' = .ok out') (k : Nat)
    (hk : k * 131072 ≤ (finiteSamples data).length) (hk' : k * 131072 ≤ (finiteSamples data').length)
    (heq : (finiteSamples data).take (k * 131072) = (finiteSamples data').take (k * 131072)) :
    out.take (k * 131072) = out'.take (k * 131072) := by
  obtain ⟨oa, rfl, fa⟩ := decoded_pieces hE ha h hl hd
  obtain ⟨ob, rfl, fb⟩ := decoded_pieces hE ha h' hl' hd'
  unfold layout at fa fb
  rw [frameSizes_multiple k _ hk] at fa
  rw [frameSizes_multiple k _ hk'] at fb
  have hw := window_ext (l := oa.flatten) (l' := ob.flatten) (o := 0) (z := k * 131072) fun j _ hj => by
    have e1 : List.replicate k 131072 = List.replicate (j / 131072) 131072 ++ 131072 :: List.replicate (k - 1 - j / 131072) 131072 := by
      rw [← List.replicate_succ, ← List.replicate_add]
      have : j / 131072 + (k - 1 - j / 131072 + 1) = k := by omega
      rw [this]
    rw [e1, List.append_assoc, List.cons_append] at fa fb
    have hsum : (List.replicate (j / 131072) 131072).sum = j / 131072 * 131072 := by rw [List.sum_replicate_nat]
    refine window_get (piece_eq (fun l o o' q q' => Except.ok.inj (q.1.symm.trans q'.1)) (fun l o q => q.2) (List.replicate (j / 131072) 131072) 131072 _ _ _ _ oa ob
      (by omega) (by omega) fa fb (window_ext fun i i1 i2 => ?_)) (j := j) (by omega) (by omega)
    have := congrArg (fun q => q[i]?) heq
    simp only [List.getElem?_take, if_pos (show i < k * 131072 by omega)] at this
    exact this
  rw [List.drop_zero, List.drop_zero] at hw
  exact hw

set_option maxRecDepth 20000 in
/-- A change of the first frame of 512 samples leaves the 3 samples of the second one alone. -/
example : okAnd (do
    let b ← compressData Ext.dummy .debug (List.replicate 512 (F64.lit 5) ++ List.replicate 3 (F64.lit 6)) { compressor := .constant, error := 3, level := 0 }
    let b' ← compressData Ext.dummy .debug (List.replicate 512 (F64.lit 9) ++ List.replicate 3 (F64.lit 6)) { compressor := .constant, error := 3, level := 0 }
    let x ← decompressData Ext.dummy b
    let x' ← decompressData Ext.dummy b'
    .ok (x, x')) (fun q => q.1.drop 512 = q.2.drop 512 ∧ q.1.drop 512 = List.replicate 3 (F64.lit 6) ∧ q.1.head? ≠ q.2.head?) = true := by
  decide +kernel

/-! ### C82 -/

/-- C82: samples that are not finite leave no trace: compressing the series with them removed gives the same result, byte for byte. -/
theorem C82_no_trace (E : Ext) (p : Profile) (data : List F64) (a : CompArgs) :
    compressData E p data a = compressData E p (data.filter fun x => x.isFinite) a := by
  have : Plan.plan data = Plan.plan (data.filter fun x => x.isFinite) := by
    unfold Plan.plan
    rw [← C36_clean, C36_idempotent]
  unfold compressData
  rw [this]

/-- The input with a NaN and an infinity gives a file, the one of the two finite samples. -/
example : okAnd (compressData Ext.dummy .debug [FP.nan, F64.lit 5, FP.inf true, F64.lit 6] { compressor := .rle, error := 3, level := 0 }) (fun b =>
    okAnd (compressData Ext.dummy .debug [F64.lit 5, F64.lit 6] { compressor := .rle, error := 3, level := 0 }) (fun b' => b = b' ∧ 12 ≤ b.length)) = true := by
  decide +kernel

end Atsc
