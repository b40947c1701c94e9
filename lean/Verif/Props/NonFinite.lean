import Verif.Props.PolyReport
import Verif.Props.FftReport
import Verif.Props.Lossless
import Verif.Props.Auto
/- C123: NaN and infinities handed to the library directly (the programs drop them first, C36). -/
namespace Atsc
open FP

/-! ### Statistics in the presence of NaN and infinities -/

theorem splitN_nonfinite {x : F64} (h : x.isFinite = false) : splitN x = (0, FP.zero) := by
  have h1 : infMag 52 11 ≤ x.mag.val := by
    unfold isFinite at h; simpa using h
  have h2 := x.mag.isLt
  have hi : infMag 52 11 = 2047 * 2 ^ 52 := by decide
  rw [hi] at h1
  have hb : x.toBits / 2 ^ 52 % 2 ^ 11 = 2047 := by
    unfold toBits
    split_ifs <;> omega
  unfold splitN
  simp only [hb]
  rfl

theorem zero_feq_zero : (FP.zero : F64).feq FP.zero = true := by decide +kernel

theorem lt_nan_right {a b : F64} (h : b.isNaN = true) : a.lt b = false := by
  unfold FP.lt; rw [h]; simp
theorem lt_nan_left {a b : F64} (h : a.isNaN = true) : a.lt b = false := by
  unfold FP.lt; rw [h]; simp

theorem nan_not_finite {x : F64} (h : x.isNaN = true) : x.isFinite = false := by
  rw [Bool.eq_false_iff]; intro hc
  rw [isFinite_not_nan hc] at h; exact absurd h (by decide)

/-- The parts of the statistics the compressors use. -/
def SameStats (a b : StatsAcc) : Prop := a.min = b.min ∧ a.max = b.max ∧ a.fractional = b.fractional

theorem step_nan {a : StatsAcc} {v : F64} (h : v.isNaN = true) : SameStats (a.step v) a := by
  refine ⟨?_, ?_, ?_⟩
  · show (if v.lt a.min then v else a.min) = a.min
    rw [lt_nan_left h]; rfl
  · show (if a.max.lt v then v else a.max) = a.max
    rw [lt_nan_right h]; rfl
  · show (a.fractional || !((splitN v).2.feq FP.zero)) = a.fractional
    rw [splitN_nonfinite (nan_not_finite h), zero_feq_zero]; simp

theorem step_same {a b : StatsAcc} (h : SameStats a b) (v : F64) : SameStats (a.step v) (b.step v) := by
  obtain ⟨h1, h2, h3⟩ := h
  refine ⟨?_, ?_, ?_⟩ <;> simp only [StatsAcc.step, h1, h2, h3]

/-- The samples that are numbers (or infinite). -/
def notNaN (data : List F64) : List F64 := data.filter fun x => !x.isNaN

theorem fold_skip_nan : ∀ (l : List F64) (a b : StatsAcc), SameStats a b → SameStats (l.foldl StatsAcc.step a) ((notNaN l).foldl StatsAcc.step b) := by
  intro l
  induction l with
  | nil => exact fun _ _ h => h
  | cons v l ih =>
    intro a b h
    unfold notNaN
    cases hv : v.isNaN with
    | true =>
      rw [List.filter_cons_of_neg (by simp [hv])]
      have h1 := step_nan (a := a) hv
      exact ih _ _ ⟨h1.1.trans h.1, h1.2.1.trans h.2.1, h1.2.2.trans h.2.2⟩
    | false =>
      rw [List.filter_cons_of_pos (by simp [hv])]
      exact ih _ _ (step_same h v)

/-- Unless a chunk starts with NaN, its NaNs do not influence minimum, maximum and storage type. -/
theorem stats_skip_nan {d : F64} {l : List F64} (hd : d.isNaN = false) {st : DataStats} (h : DataStats.new (d :: l) = .ok st) :
    ∃ st', DataStats.new (notNaN (d :: l)) = .ok st' ∧ st.min = st'.min ∧ st.max = st'.max ∧ st.bitdepth = st'.bitdepth := by
  have hf : notNaN (d :: l) = d :: notNaN l := by
    unfold notNaN; rw [List.filter_cons_of_pos (by simp [hd])]
  have key := fold_skip_nan (d :: l) (statsInit d) (statsInit d) ⟨rfl, rfl, rfl⟩
  rw [hf] at key ⊢
  have h0 := Except.ok.inj h
  refine ⟨_, rfl, ?_, ?_, ?_⟩
  · rw [← h0]; exact key.1
  · rw [← h0]; exact key.2.1
  · rw [← h0]
    obtain ⟨k1, k2, k3⟩ := key
    show (if ((d :: l).foldl StatsAcc.step (statsInit d)).fractional then _ else _) = if ((d :: notNaN l).foldl StatsAcc.step (statsInit d)).fractional then _ else _
    rw [k3]
    refine if_congr Iff.rfl rfl ?_
    show bitdepthOf (splitN ((d :: l).foldl StatsAcc.step (statsInit d)).max).1 (splitN ((d :: l).foldl StatsAcc.step (statsInit d)).min).1 = _
    rw [k1, k2]
    rfl

/-- A chunk that starts with NaN has NaN as minimum and maximum. -/
theorem stats_nan_first {d : F64} {l : List F64} (hd : d.isNaN = true) {st : DataStats} (h : DataStats.new (d :: l) = .ok st) :
    st.min = d ∧ st.max = d := by
  have key : ∀ (l : List F64) (a : StatsAcc), a.min = d ∧ a.max = d → (l.foldl StatsAcc.step a).min = d ∧ (l.foldl StatsAcc.step a).max = d := by
    intro l
    induction l with
    | nil => exact fun _ h => h
    | cons v l ih =>
      intro a ⟨h1, h2⟩
      refine ih _ ⟨?_, ?_⟩
      · show (if v.lt a.min then v else a.min) = d
        rw [h1, lt_nan_right hd]; rfl
      · show (if a.max.lt v then v else a.max) = d
        rw [h2, lt_nan_left hd]; rfl
  rw [← Except.ok.inj h]
  exact key (d :: l) (statsInit d) ⟨rfl, rfl⟩

/-- One in-range sample with a fraction makes the chunk stored as f64, whatever the others are. -/
theorem stats_fractional {data : List F64} {st : DataStats} (h : DataStats.new data = .ok st) {x : F64} (hx : x ∈ data) (hr : InRange x)
    (hfr : ∀ n : ℤ, x.val ≠ n) : st.bitdepth = .f64 := by
  have hxf : (splitN x).2.feq FP.zero = false := by
    rw [Bool.eq_false_iff]
    intro hz
    exact hfr _ ((val_eq_int (by decide)).2 (splitN_int (inRange_iff.1 hr) hz))
  have key : ∀ (l : List F64) (a : StatsAcc), a.fractional = true ∨ x ∈ l → (l.foldl StatsAcc.step a).fractional = true := by
    intro l
    induction l with
    | nil =>
      rintro a (h | h)
      · exact h
      · cases h
    | cons v l ih =>
      rintro a h
      refine ih _ ?_
      show (a.fractional || !((splitN v).2.feq FP.zero)) = true ∨ _
      rcases h with h | h
      · rw [h]; simp
      · rcases List.mem_cons.1 h with rfl | h
        · rw [hxf]; simp
        · exact Or.inr h
  cases data with
  | nil => cases hx
  | cons d l =>
    rw [← Except.ok.inj h]
    show (if ((d :: l).foldl StatsAcc.step (statsInit d)).fractional then Bitdepth.f64 else _) = _
    rw [key _ _ (Or.inr hx)]
    rfl

/-! ### RLE -/

/-- Samples that compare equal in a row: the last one equals the first, or there is only one. -/
theorem chain_any {data : List F64} {i j : Nat} (hij : i ≤ j) (hj : j < data.length)
    (h : ∀ k (_ : k + 1 < data.length), i ≤ k → k < j → (data[k + 1]).feq data[k] = true) :
    j = i ∨ (data[j]).feq (data[i]'(by omega)) = true := by
  induction j with
  | zero => exact Or.inl (by omega)
  | succ j ih =>
    rcases Nat.lt_or_ge j i with hlt | hge
    · exact Or.inl (by omega)
    · right
      have h1 := h j hj hge (by omega)
      rcases ih hge (by omega) (fun k hk a b => h k hk a (by omega)) with rfl | h2
      · exact h1
      · obtain ⟨a1, a2, a3⟩ := feq_iff.1 h1
        obtain ⟨b1, b2, b3⟩ := feq_iff.1 h2
        exact feq_iff.2 ⟨a1, b2, a3.trans b3⟩

/-- What RLE makes of one sample: the conversion of an equal sample, and of itself when it is NaN. -/
theorem rle_each (E : Ext) (data : List F64) (hne : data ≠ []) (hlen : data.length < 2 ^ 64) :
    ∃ st bs out, DataStats.new data = .ok st ∧ Compressor.rle.compress E data = .ok bs ∧
      Compressor.rle.decompress E data.length bs = .ok out ∧ out.length = data.length ∧
      ∀ i (ha : i < out.length) (hb : i < data.length), ∃ v ∈ data, out[i] = castBD st.bitdepth v ∧
        (v = data[i] ∨ v.feq data[i] = true) ∧ (data[i].isNaN = true → v = data[i]) := by
  obtain ⟨st, bs, out, hst, h1, h2, h3, h4⟩ := C11_rle_runs E data hne hlen
  refine ⟨st, bs, out, hst, h1, h2, h3, fun i ha hb => ?_⟩
  obtain ⟨j, hij, hj, h5, _, h6⟩ := h4 i hb
  rw [List.getElem?_eq_getElem ha] at h6
  refine ⟨data[j], List.getElem_mem hj, Option.some.inj h6, ?_, fun hnan => ?_⟩
  · rcases chain_any hij hj h5 with rfl | h
    · exact Or.inl rfl
    · exact Or.inr h
  · rcases chain_any hij hj h5 with rfl | h
    · rfl
    · rw [(feq_iff.1 h).2.1] at hnan; exact absurd hnan (by decide)

/-- C123, RLE with a fraction: when some sample in range is not an integer, every sample comes back - a NaN as the same NaN, an infinity as itself, every other sample
as an equal one. -/
theorem C123_rle_fraction (E : Ext) (data : List F64) (hlen : data.length < 2 ^ 64) (x : F64) (hx : x ∈ data) (hr : InRange x)
    (hfr : ∀ n : ℤ, x.val ≠ n) :
    ∃ bs out, Compressor.rle.compress E data = .ok bs ∧ Compressor.rle.decompress E data.length bs = .ok out ∧ out.length = data.length ∧
      ∀ i (ha : i < out.length) (hb : i < data.length), (data[i].isNaN = true → out[i] = data[i]) ∧
        (data[i].isNaN = false → (out[i]).feq data[i] = true) := by
  have hne : data ≠ [] := by rintro rfl; simp at hx
  obtain ⟨st, bs, out, hst, h1, h2, h3, h4⟩ := rle_each E data hne hlen
  refine ⟨bs, out, h1, h2, h3, fun i ha hb => ?_⟩
  obtain ⟨v, _, k1, k2, k3⟩ := h4 i ha hb
  rw [stats_fractional hst hx hr hfr] at k1
  have k1 : out[i] = v := k1
  rw [k1]
  refine ⟨k3, fun hn => ?_⟩
  rcases k2 with k2 | k2
  · rw [k2]; exact feq_refl hn
  · exact k2

theorem castBD_nan (bd : Bitdepth) {v : F64} (h : v.isNaN = true) (hbd : bd ≠ .f64) : (castBD bd v).val = 0 ∧ (castBD bd v).isFinite = true := by
  have hz : ((FP.ofInt 0 : F64)).val = 0 ∧ (FP.ofInt 0 : F64).isFinite = true := by
    constructor
    · exact (val_eq_int (n := 0) (by decide)).2 (by decide +kernel) |>.trans (by norm_num)
    · decide +kernel
  cases bd with
  | f64 => exact absurd rfl hbd
  | u8 => unfold castBD F64.toU8 toInt; rw [if_pos h]; exact hz
  | i16 => unfold castBD F64.toI16 toInt; rw [if_pos h]; exact hz
  | i32 => unfold castBD F64.toI32 toInt; rw [if_pos h]; exact hz

/-- C123, RLE with NaNs among ordinary samples: if the chunk does not start with NaN and every sample that is not NaN is finite and in range, each of those comes back
as an equal number; the NaNs come back either all as NaN or all as 0. -/
theorem C123_rle_nan (E : Ext) (d : F64) (l : List F64) (hlen : (d :: l).length < 2 ^ 64) (hd : d.isNaN = false)
    (hr : ∀ x ∈ d :: l, x.isNaN = false → x.isFinite = true ∧ InRange x) :
    ∃ bs out, Compressor.rle.compress E (d :: l) = .ok bs ∧ Compressor.rle.decompress E (d :: l).length bs = .ok out ∧ out.length = (d :: l).length ∧
      (∀ i (ha : i < out.length) (hb : i < (d :: l).length), (d :: l)[i].isNaN = false → (out[i]).val = ((d :: l)[i]).val ∧ out[i].isFinite = true) ∧
      ((∀ i (ha : i < out.length) (hb : i < (d :: l).length), (d :: l)[i].isNaN = true → out[i] = (d :: l)[i]) ∨
       (∀ i (ha : i < out.length) (hb : i < (d :: l).length), (d :: l)[i].isNaN = true → (out[i]).val = 0 ∧ out[i].isFinite = true)) := by
  obtain ⟨st, bs, out, hst, h1, h2, h3, h4⟩ := rle_each E (d :: l) (by simp) hlen
  obtain ⟨st', g1, _, _, g4⟩ := stats_skip_nan hd hst
  have hmem : ∀ v, v ∈ notNaN (d :: l) ↔ v ∈ d :: l ∧ v.isNaN = false := by
    intro v; unfold notNaN; rw [List.mem_filter]; simp
  refine ⟨bs, out, h1, h2, h3, fun i ha hb hn => ?_, ?_⟩
  · obtain ⟨v, k0, k1, k2, _⟩ := h4 i ha hb
    have hv : v.isNaN = false ∧ v.scaled = ((d :: l)[i]).scaled := by
      rcases k2 with rfl | k2
      · exact ⟨hn, rfl⟩
      · exact ⟨(feq_iff.1 k2).1, (feq_iff.1 k2).2.2⟩
    have hc := castBD_val (data := notNaN (d :: l)) (fun y hy => (hr y ((hmem y).1 hy).1 ((hmem y).1 hy).2).1)
      (fun y hy => (hr y ((hmem y).1 hy).1 ((hmem y).1 hy).2).2) g1 ((hmem v).2 ⟨k0, hv.1⟩)
    rw [k1, g4]
    exact ⟨hc.1.trans ((val_eq_iff (by decide)).2 hv.2), hc.2⟩
  · by_cases hbd : st.bitdepth = .f64
    · left
      intro i ha hb hn
      obtain ⟨v, _, k1, _, k3⟩ := h4 i ha hb
      rw [k1, hbd]; exact k3 hn
    · right
      intro i ha hb hn
      obtain ⟨v, _, k1, _, k3⟩ := h4 i ha hb
      rw [k1, k3 hn]
      exact castBD_nan _ hn hbd

/-! ### Polynomial, IDW and FFT -/

theorem stats_from_head {d : F64} {l : List F64} (hd : d.isNaN = false) {st : DataStats} (h : DataStats.new (d :: l) = .ok st) :
    st.min ∈ d :: l ∧ st.max ∈ d :: l ∧ st.min.le st.max = true ∧ st.max.isNaN = false := by
  obtain ⟨st', g1, g2, g3, _⟩ := stats_skip_nan hd h
  have hn : ∀ v ∈ notNaN (d :: l), v.isNaN = false := by
    intro v hv; unfold notNaN at hv; rw [List.mem_filter] at hv; simpa using hv.2
  have hsub : ∀ v ∈ notNaN (d :: l), v ∈ d :: l := fun v hv => (List.mem_filter.1 hv).1
  have hne : notNaN (d :: l) ≠ [] := by
    unfold notNaN; rw [List.filter_cons_of_pos (by simp [hd])]; simp
  obtain ⟨h1, h2, h3⟩ := stats_range hne hn g1
  rw [g2, g3]
  exact ⟨hsub _ h1, hsub _ h2, (h3 _ h2).1, hn _ h2⟩

theorem poly_from_head (E : Ext) (d : F64) (l : List F64) (hd : d.isNaN = false) (hlen : (d :: l).length < 2 ^ 64) {st : DataStats}
    (hst : DataStats.new (d :: l) = .ok st) (ty : PolyType) (c : Poly)
    (h : c = Poly.start st ty ∨ ∃ k, 1 ≤ k ∧ k ≤ 133 ∧ c = (Poly.start st ty).stored (d :: l) k) :
    ∃ out, ty.comp.decompress E (d :: l).length c.enc = .ok out ∧ out.length = (d :: l).length ∧ WithinChunk (d :: l) out := by
  obtain ⟨hminm, hmaxm, hle, hmn⟩ := stats_from_head hd hst
  have key : ∀ c : Poly, c.min = st.min → c.max = st.max → c.pointStep ≠ 0 →
      ∃ out, c.toData E (d :: l).length = .ok out ∧ out.length = (d :: l).length ∧ WithinChunk (d :: l) out := by
    intro c h1 h2 h3
    unfold Poly.toData
    split_ifs with hc
    · refine ⟨_, rfl, List.length_replicate, fun y hy _ => ?_⟩
      obtain rfl := List.eq_of_mem_replicate hy
      rw [h2]
      have := le_iff.2 ⟨hmn, hmn, le_refl _⟩
      exact ⟨⟨_, hmaxm, this⟩, ⟨_, hmaxm, this⟩⟩
    · obtain ⟨out, o1, o2, o3⟩ := interpolate_ok E c (d :: l).length (by simp) h3
      refine ⟨out, o1, o2, fun y hy hyn => ?_⟩
      obtain ⟨v, rfl⟩ := o3 y hy
      rw [h1, h2] at hyn ⊢
      obtain ⟨k1, k2⟩ := C32_clamped v st.min st.max 5 (by norm_num) hle
      cases hv : v.isNaN with
      | true => rw [k2 hv] at hyn; exact absurd hyn (by decide)
      | false => exact ⟨⟨_, hminm, (k1 hv).1⟩, ⟨_, hmaxm, (k1 hv).2⟩⟩
  rw [comp_decompress]
  rcases h with rfl | ⟨k, h1, h2, rfl⟩
  · rw [polyToData_enc E _ (Poly.start st ty) (Nat.two_pow_pos 64)]
    exact key _ rfl rfl (by show 1 % 256 ≠ 0; decide)
  · rw [polyToData_enc E _ _ (lt_of_le_of_lt (stored_length_le (by simp) h1 _) hlen)]
    refine key _ rfl rfl ?_
    show k % 256 % 256 ≠ 0
    omega

/-- C123, Polynomial and IDW, with and without a bound (any bound, even NaN): unless the chunk starts with NaN, every sample that comes back is NaN or between two samples of
the chunk, whatever else the chunk holds and whatever the interpolation library computes. -/
theorem C123_poly_range (E : Ext) (ty : PolyType) (d : F64) (l : List F64) (hd : d.isNaN = false) (hlen : (d :: l).length < 2 ^ 64) :
    (∃ bs out, ty.comp.compress E (d :: l) = .ok bs ∧ ty.comp.decompress E (d :: l).length bs = .ok out ∧
      out.length = (d :: l).length ∧ WithinChunk (d :: l) out) ∧
    ∀ e, ∃ bs out, ty.comp.compressBounded E (d :: l) e = .ok bs ∧ ty.comp.decompress E (d :: l).length bs = .ok out ∧
      out.length = (d :: l).length ∧ WithinChunk (d :: l) out := by
  have hne : d :: l ≠ [] := by simp
  obtain ⟨st, hst⟩ := stats_ok hne
  constructor
  · rw [comp_compress E ty _ hne]
    obtain ⟨c, h1, h2⟩ := poly_plain_cases _ hne ty st hst
    obtain ⟨out, h3⟩ := poly_from_head E d l hd hlen hst ty c (by
      rcases h2 with ⟨_, h⟩ | ⟨_, h⟩
      · exact Or.inl h
      · exact Or.inr h)
    exact ⟨_, out, h1, h3⟩
  · intro e
    rw [(comp_bounded E ty _ hne e).2]
    obtain ⟨c, r, h1, h2, h3⟩ := poly_bounded_cases E _ hne ty e st hst
    obtain ⟨out, h4⟩ := poly_from_head E d l hd hlen hst ty c (by
      rcases h3 with ⟨_, h, _⟩ | ⟨_, _, h⟩ | ⟨_, _, s, hs, rfl, _⟩
      · exact Or.inl h
      · exact Or.inl h
      · exact Or.inr (polyDone_stored hs))
    exact ⟨_, out, by rw [h1]; rfl, by rw [h2]; exact h4.1, h4.2⟩

theorem fft_from_head (E : Ext) (hE : E.Lawful) (d : F64) (l : List F64) (hd : d.isNaN = false) {st : DataStats} (hst : DataStats.new (d :: l) = .ok st)
    (fs : List FreqPoint) (hok : ({ Fft.start st with frequencies := fs } : Fft).Ok) (hpos : ∀ f ∈ fs, f.pos < paddedLen (d :: l).length) :
    ∃ out, Compressor.fft.decompress E (d :: l).length ({ Fft.start st with frequencies := fs } : Fft).enc = .ok out ∧
      out.length = (d :: l).length ∧ WithinChunkSingle (d :: l) out := by
  obtain ⟨hminm, hmaxm, hle64, _⟩ := stats_from_head hd hst
  have hle32 : (FP.cvt st.min : F32).le (FP.cvt st.max) = true := cvt_mono infMag64_pos hle64
  have hle : (toSingle st.min).le (toSingle st.max) = true := cvt_mono infMag32_pos hle32
  obtain ⟨hn1, hn2, _⟩ := le_iff.1 hle
  set c : Fft := { Fft.start st with frequencies := fs } with hcdef
  have hdec : Compressor.fft.decompress E (d :: l).length c.enc = c.toData E (d :: l).length := by
    simp only [Compressor.decompress, fftToData]
    rw [fft_unwrap c hok, ok_bind]
    rfl
  rw [hdec]
  cases hc : c.maxValue.feq c.minValue with
  | true =>
    unfold Fft.toData
    rw [if_pos hc]
    refine ⟨_, rfl, List.length_replicate, fun y hy _ => ?_⟩
    obtain rfl := List.eq_of_mem_replicate hy
    have h1 : (toSingle st.max).le (toSingle st.max) = true := le_iff.2 ⟨hn2, hn2, le_refl _⟩
    exact ⟨⟨_, hmaxm, h1⟩, ⟨_, hmaxm, h1⟩⟩
  | false =>
    rw [toData_window E hE c _ hc]
    obtain ⟨out, h1, h2, h3⟩ := reconstruct_ok hE c (paddedLen (d :: l).length) hpos
    rw [h1, ok_bind]
    refine ⟨_, rfl, ?_, ?_⟩
    · rw [List.length_take, List.length_drop, h2]
      have := nextSize_gt (d :: l).length
      unfold padBefore paddedLen; split_ifs <;> omega
    · intro y hy hyn
      obtain ⟨v, rfl⟩ := h3 y (List.drop_subset _ _ (List.take_subset _ _ hy))
      obtain ⟨k1, k2⟩ := fftRound_range c v hle hyn
      exact ⟨⟨_, hminm, k1⟩, ⟨_, hmaxm, k2⟩⟩

/-- C123, FFT, with and without a bound: the same, the samples of the chunk rounded to single precision. -/
theorem C123_fft_range (E : Ext) (hE : E.Lawful) (d : F64) (l : List F64) (hd : d.isNaN = false) (hlen : (d :: l).length < 2 ^ 62) :
    (∃ bs out, Compressor.fft.compress E (d :: l) = .ok bs ∧ Compressor.fft.decompress E (d :: l).length bs = .ok out ∧
      out.length = (d :: l).length ∧ WithinChunkSingle (d :: l) out) ∧
    ∀ e, ∃ bs out, Compressor.fft.compressBounded E (d :: l) e = .ok bs ∧ Compressor.fft.decompress E (d :: l).length bs = .ok out ∧
      out.length = (d :: l).length ∧ WithinChunkSingle (d :: l) out := by
  have hne : d :: l ≠ [] := by simp
  have h1 : 1 ≤ (d :: l).length := List.length_pos_of_ne_nil hne
  obtain ⟨st, hst⟩ := stats_ok hne
  constructor
  · obtain ⟨c, h2, ⟨_, rfl⟩ | ⟨_, fs, h4, rfl⟩⟩ := fft_plain_cases E hE _ hne st hst
    · obtain ⟨out, ho⟩ := fft_from_head E hE d l hd hst [] (fftOk_nil st) (by simp)
      exact ⟨_, out, h2, ho⟩
    · have hhl := fftHalf_length hE h1
      obtain ⟨k1, k2⟩ := fft_frame_freqs hE (by unfold baselinePoints; split_ifs <;> omega) h4 (c0 := Fft.start st) (by omega)
      have := paddedLen_ge (d :: l).length
      obtain ⟨out, ho⟩ := fft_from_head E hE d l hd hst fs k1 fun f hf => by have := k2 f hf; omega
      exact ⟨_, out, h2, ho⟩
  · intro e
    obtain ⟨fs, r, _, h3, h4, h5, h6⟩ := fft_bounded_freqs E hE _ hne hlen e st hst
    obtain ⟨out, ho⟩ := fft_from_head E hE d l hd hst fs h5 h6
    exact ⟨_, out, h3, by rw [h4]; exact ho.1, ho.2⟩

/-! ### Auto -/

theorem mape_term_nan {o : F64} (h : o.isFinite = false) (g : F64) : (((g.sub o).div o).abs).isNaN = true := by
  have habs : ∀ a : F64, a.abs.isNaN = a.isNaN := fun a => rfl
  rw [habs]
  cases ho : o.isNaN with
  | true => unfold FP.div; rw [ho, Bool.or_true, if_pos rfl]; exact nan_isNaN64
  | false =>
    have hinf : o.isInf = true := by
      by_contra hc
      rw [isFinite_iff.2 ⟨ho, by simpa using hc⟩] at h
      exact absurd h (by decide)
    have hni : o.neg.isInf = true := hinf
    have hsub : (g.sub o).isNaN = true ∨ (g.sub o).isInf = true := by
      unfold FP.sub FP.add
      split_ifs with h1 h2 h3
      · exact Or.inl nan_isNaN64
      · exact Or.inl nan_isNaN64
      · exact Or.inr h2
      · exact Or.inr hni
    unfold FP.div
    rcases hsub with hs | hs
    · rw [hs, Bool.true_or, if_pos rfl]; exact nan_isNaN64
    · split_ifs
      · exact nan_isNaN64
      · exact nan_isNaN64

theorem fsum_nan : ∀ (l : List F64) (s : F64), (s.isNaN = true ∨ ∃ x ∈ l, x.isNaN = true) → (l.foldl FP.add s).isNaN = true := by
  intro l
  induction l with
  | nil =>
    rintro s (h | ⟨x, hx, _⟩)
    · exact h
    · cases hx
  | cons a l ih =>
    intro s h
    refine ih _ ?_
    rcases h with h | ⟨x, hx, hn⟩
    · left; unfold FP.add; rw [h, Bool.true_or, if_pos rfl]; exact nan_isNaN64
    · rcases List.mem_cons.1 hx with rfl | hx
      · left; unfold FP.add; rw [hn, Bool.or_true, if_pos rfl]; exact nan_isNaN64
      · exact Or.inr ⟨x, hx, hn⟩

/-- The measured error of a chunk with a sample that is not finite is NaN. -/
theorem error_nan {data out : List F64} {err z : F64} (hz : z ∈ data) (hzf : z.isFinite = false) (h : calculateError data out = .ok err) :
    err.isNaN = true := by
  have h : errorMape data out = .ok err := h
  unfold errorMape at h
  split_ifs at h with hl
  rw [← Except.ok.inj h]
  have hs : (fsum (List.zipWith (fun o g => ((g.sub o).div o).abs) data out)).isNaN = true := by
    unfold fsum
    refine fsum_nan _ _ (Or.inr ?_)
    obtain ⟨i, hi, rfl⟩ := List.getElem_of_mem hz
    have hi' : i < out.length := by omega
    refine ⟨_, List.getElem_mem (n := i) (by rw [List.length_zipWith]; omega), ?_⟩
    rw [List.getElem_zipWith]
    exact mape_term_nan hzf _
  generalize fsum (List.zipWith (fun o g => ((g.sub o).div o).abs) data out) = t at hs
  unfold FP.div
  rw [hs, Bool.true_or, if_pos rfl]; exact nan_isNaN64

theorem le_nan_left {a b : F64} (h : a.isNaN = true) : a.le b = false := by
  unfold FP.le; rw [h]; simp

theorem cvt_lt {x y : F64} (h : (FP.cvt x : F32).lt (FP.cvt y) = true) : x.isNaN = false ∧ y.isNaN = false ∧ x.lt y = true := by
  have hnan : ∀ a : F64, (FP.cvt a : F32).isNaN = false → a.isNaN = false := by
    intro a ha
    by_contra hc
    rw [Bool.not_eq_false] at hc
    unfold FP.cvt at ha
    rw [if_pos hc, nan_isNaN32] at ha
    exact absurd ha (by decide)
  obtain ⟨h1, h2, h3⟩ := lt_iff.1 h
  refine ⟨hnan _ h1, hnan _ h2, ?_⟩
  by_contra hc
  have : y.le x = true := by
    refine le_iff.2 ⟨hnan _ h2, hnan _ h1, ?_⟩
    by_contra hh
    exact hc (lt_iff.2 ⟨hnan _ h1, hnan _ h2, by omega⟩)
  have := (le_iff.1 (cvt_mono (mb' := 23) (eb' := 8) infMag64_pos this)).2.2
  omega

/-- Two samples that differ in single precision: no compressor takes the chunk for a constant one, whatever the other samples are. -/
theorem nonconst_any {data : List F64} {st : DataStats} (hst : DataStats.new data = .ok st) {x y : F64} (hx : x ∈ data) (hy : y ∈ data)
    (hxy : (FP.cvt x : F32).lt (FP.cvt y) = true) :
    st.max.feq st.min = false ∧ (Fft.start st).maxValue.feq (Fft.start st).minValue = false := by
  obtain ⟨hxn, hyn, hlt⟩ := cvt_lt hxy
  cases data with
  | nil => cases hx
  | cons d l =>
    cases hd : d.isNaN with
    | true =>
      obtain ⟨h1, h2⟩ := stats_nan_first hd hst
      constructor
      · rw [h2]; unfold FP.feq; rw [hd]; simp
      · show (FP.cvt st.max : F32).feq (FP.cvt st.min) = false
        have : (FP.cvt st.max : F32).isNaN = true := by
          rw [h2]; unfold FP.cvt; rw [if_pos hd]; exact nan_isNaN32
        unfold FP.feq; rw [this]; simp
    | false =>
      obtain ⟨st', g1, g2, g3, _⟩ := stats_skip_nan hd hst
      have hmem : ∀ v, v ∈ d :: l → v.isNaN = false → v ∈ notNaN (d :: l) := by
        intro v h1 h2; unfold notNaN; rw [List.mem_filter]; exact ⟨h1, by simp [h2]⟩
      have hn : ∀ v ∈ notNaN (d :: l), v.isNaN = false := by
        intro v hv; unfold notNaN at hv; rw [List.mem_filter] at hv; simpa using hv.2
      constructor
      · rw [g2, g3]; exact stats_nonconst hn g1 (hmem x hx hxn) (hmem y hy hyn) hlt
      · show (FP.cvt st.max : F32).feq (FP.cvt st.min) = false
        rw [g2, g3]; exact fft_nonconst hn g1 (hmem x hx hxn) (hmem y hy hyn) hxy

/-- The first round of the Polynomial search keeps fewer samples than there are, from six samples on. -/
theorem first_round_few {n : Nat} (hn : 6 ≤ n) : (positions n (hintStep n (baselinePoints n + 0))).length ≠ n := by
  have h2 : 2 ≤ hintStep n (baselinePoints n + 0) := by
    refine le_trans ?_ (Nat.le_max_left _ _)
    unfold baselinePoints
    split_ifs with h
    · rw [Nat.le_div_iff_mul_le (by omega)]; omega
    · rw [Nat.le_div_iff_mul_le (by omega)]; omega
  generalize hintStep n (baselinePoints n + 0) = k at h2
  have hq : (n + k - 1) / k ≤ (n + 1) / 2 := by
    rw [Nat.div_le_iff_le_mul_add_pred (by omega)]
    have : k * ((n + 1) / 2) = 2 * ((n + 1) / 2) + (k - 2) * ((n + 1) / 2) := by
      rw [← Nat.add_mul]; congr 1; omega
    omega
  have hl : (positions n k).length ≤ (n + k - 1) / k + 1 := by
    unfold positions
    dsimp only
    split_ifs <;> simp
  omega

/-- The Polynomial candidate reports NaN. -/
theorem poly_error_nan (E : Ext) (data : List F64) (hl : 6 ≤ data.length) (e : F64) (hs : PolySearches e) {z : F64} (hz : z ∈ data) (hzf : z.isFinite = false)
    {st : DataStats} (hst : DataStats.new data = .ok st) (hc : st.max.feq st.min = false) {r : CResult}
    (hr : polynomialAllowedError E data e .polynomial = .ok r) : r.error.isNaN = true := by
  unfold polynomialAllowedError at hr
  rw [hst, ok_bind] at hr
  have hcb : (Poly.start st .polynomial).max.feq (Poly.start st .polynomial).min = false := hc
  have hstart : Poly.new st.min st.max .polynomial st.bitdepth = Poly.start st .polynomial := rfl
  rw [hstart] at hr
  unfold Poly.compressBounded at hr
  rw [if_neg (by rw [hcb]; decide)] at hr
  have hb : 1 ≤ baselinePoints data.length + 0 := by unfold baselinePoints; split_ifs <;> omega
  have hcomp := hinted_ok (Poly.start st .polynomial) data (baselinePoints data.length + 0) hcb hb (by omega)
  have hfew := first_round_few hl
  have hk1 : 1 ≤ hintStep data.length (baselinePoints data.length + 0) := Nat.le_max_right _ _
  have hk2 : hintStep data.length (baselinePoints data.length + 0) ≤ 133 := by
    refine Nat.max_le.2 ⟨?_, by omega⟩
    unfold baselinePoints
    split_ifs with h
    · omega
    · have : data.length / (data.length / 100 + 0) ≤ 133 := by
        rw [Nat.div_le_iff_le_mul_add_pred (by omega)]
        omega
      exact this
  generalize hintStep data.length (baselinePoints data.length + 0) = k at hcomp hfew hk1 hk2
  have hcd : ((Poly.start st .polynomial).stored data k).dataPoints.length ≠ data.length := by
    rw [stored_len]; exact hfew
  obtain ⟨out, o1, o2, _⟩ := interpolate_ok E ((Poly.start st .polynomial).stored data k) data.length (by omega)
    (by show k % 256 ≠ 0; omega)
  obtain ⟨err, herr⟩ : ∃ err, calculateError data out = .ok err := ⟨_, if_neg (by omega)⟩
  have hnan := error_nan hz hzf herr
  have hround : (roundF64 err 4).isNaN = true := by
    have hm : ∀ t : F64, (err.mul t).isNaN = true := fun t => by unfold FP.mul; rw [hnan, Bool.true_or, if_pos rfl]; exact nan_isNaN64
    have hr : ∀ t : F64, t.isNaN = true → t.round.isNaN = true := by
      intro t ht; unfold FP.round; rw [nan_not_finite ht]; exact ht
    have hd : ∀ a t : F64, a.isNaN = true → (a.div t).isNaN = true := fun a t h => by unfold FP.div; rw [h, Bool.true_or, if_pos rfl]; exact nan_isNaN64
    unfold roundF64
    exact hd _ _ (hr _ (hm _))
  have hloop : Poly.loop E data (roundF64 e 3) 23 ((Poly.start st .polynomial).loopInit e) =
      .ok { c := (Poly.start st .polynomial).stored data k, err := err, jump := 0 + Nat.max (data.length / 10) 1, iterations := 0 + 1 } := by
    rw [Poly.loop.eq_def]
    dsimp only
    rw [if_pos (by exact hs)]
    have hstep : Poly.step E data (roundF64 e 3) ((Poly.start st .polynomial).loopInit e) =
        .ok (.cont { c := (Poly.start st .polynomial).stored data k, err := err, jump := 0 + Nat.max (data.length / 10) 1, iterations := 0 + 1 }) := by
      unfold Poly.step Poly.loopInit
      dsimp only
      rw [hcomp, ok_bind, o1, ok_bind, herr, ok_bind, if_pos (by decide), if_neg hcd]
      rfl
    rw [hstep, ok_bind]
    dsimp only
    rw [Poly.loop.eq_def]
    dsimp only
    rw [if_neg]
    rw [lt_nan_right hround]; decide
  rw [hloop, ok_bind, ok_bind] at hr
  rw [← Except.ok.inj hr]
  exact hnan

/-- The FFT candidate reports NaN. -/
theorem fft_error_nan (E : Ext) (hE : E.Lawful) (data : List F64) (hne : data ≠ []) (e : F64) (hs : Searches e) {z : F64} (hz : z ∈ data) (hzf : z.isFinite = false)
    {st : DataStats} (hst : DataStats.new data = .ok st) (hc : (Fft.start st).maxValue.feq (Fft.start st).minValue = false) {r : CResult}
    (hr : Compressor.fft.boundedResults E data e = .ok r) : r.error.isNaN = true := by
  have hn1 : 1 ≤ data.length := List.length_pos_of_ne_nil hne
  obtain ⟨c, r', h1, _, _, h3⟩ := fft_bounded_cases E hE data hne e st hst
  rw [hr] at h1; obtain rfl := Except.ok.inj h1
  have hs' := (searches_iff e).1 hs
  rcases h3 with ⟨h, _⟩ | ⟨_, h, _⟩ | ⟨_, _, s, ⟨_, out, _, h⟩, _, _, _, he⟩
  · rw [hc] at h; exact absurd h (by decide)
  · exact absurd hs' h
  · rw [he]
    refine error_nan (z := z) ?_ hzf h
    rw [← gibbsData_window hn1] at hz
    exact List.drop_subset _ _ (List.take_subset _ _ hz)

/-- C123, Auto: if a sample among those the level examines is NaN or infinite, the measured errors of the lossy compressors are NaN, which is never within the bound.
So a chunk of six samples or more with two samples that differ (in single precision) is stored as RLE, whatever the bound (0 to a million). -/
theorem C123_auto_rle (E : Ext) (hE : E.Lawful) (p : Profile) (s : Stream) (data : List F64) (hl : 6 ≤ data.length) (e : F32)
    (he : (FP.zero : F32).le e = true) (hef : (FP.cvt e : F64).isFinite = true) (hem : (FP.cvt e : F64).val ≤ 1000000) (speed : Nat)
    (x y z : F64) (hx : x ∈ data.take (sampleSize speed)) (hy : y ∈ data.take (sampleSize speed)) (hxy : (FP.cvt x : F32).lt (FP.cvt y) = true)
    (hz : z ∈ data.take (sampleSize speed)) (hzf : z.isFinite = false) (g : Frame) (h : (ChunkOp.bounded data .auto e speed).Adds E p s g) :
    g.compressor = .rle := by
  have hne : data ≠ [] := by rintro rfl; simp at hl
  obtain ⟨f, hf, rfl⟩ := adds_inv h
  obtain ⟨st, hst⟩ := stats_ok hne
  have hsp : speed ≤ 6 := by
    by_contra hc
    obtain ⟨s', h1, _⟩ := h
    rw [C25_level_rejected E p s data e speed (by omega)] at h1
    exact absurd h1 (by simp)
  have hf : (Frame.new (some .auto)).compressBest E data e speed = .ok f := hf
  have he0 : 0 ≤ (FP.cvt e : F64).val := by
    have h0 : (FP.cvt (FP.zero : F32) : F64).val = 0 := by
      refine ((val_eq_int (n := 0) (by decide)).2 ?_).trans (by norm_num)
      decide +kernel
    rw [← h0, val_le_iff (by decide)]
    exact (le_iff.1 (cvt_mono (mb' := 52) (eb' := 11) infMag32_pos he)).2.2
  have habs : |(FP.cvt e : F64).val| ≤ 1000000 := by rw [abs_of_nonneg he0]; exact hem
  have s1 : Searches (FP.cvt e) := (C24_which_bounds _).1 hef habs
  have s2 : PolySearches (FP.cvt e) := (C18_which_bounds _).1 hef (le_trans habs (by norm_num))
  set t := data.take (sampleSize speed) with ht
  have htl : 6 ≤ t.length := by
    rw [ht, List.length_take]
    have : 6 ≤ sampleSize speed := by
      unfold sampleSize; split <;> omega
    omega
  have htne : t ≠ [] := by rintro h0; rw [h0] at htl; simp at htl
  obtain ⟨st', hst'⟩ := stats_ok htne
  obtain ⟨n1, n2⟩ := nonconst_any hst' hx hy hxy
  have only : ∀ c bs, SmallestWithin E c t (FP.cvt e) bs → c = .rle := by
    rintro c bs ⟨⟨err, ⟨hrank, r, h1, _, rfl⟩, h2⟩, _⟩
    cases c with
    | fft =>
      rw [le_nan_left (fft_error_nan E hE t htne _ s1 hz hzf hst' n2 h1)] at h2
      exact absurd h2 (by decide)
    | polynomial =>
      have h1' : polynomialAllowedError E t (FP.cvt e) .polynomial = .ok r := by
        rw [← (comp_bounded E .polynomial t htne (FP.cvt e)).1]; exact h1
      rw [le_nan_left (poly_error_nan E t htl _ s2 hz hzf hst' n1 h1')] at h2
      exact absurd h2 (by decide)
    | rle => rfl
    | _ => exact absurd hrank (by decide)
  obtain ⟨-, b2, b3⟩ := best_cases E hE (Frame.new (some .auto)) data hne e speed hsp st hst
  have hcst : st.min.feq st.max = false := by
    rw [feq_comm]
    exact (nonconst_any hst (List.take_subset _ _ hx) (List.take_subset _ _ hy) hxy).1
  show f.compressor = _
  rcases Nat.lt_or_ge data.length (sampleSize speed) with hlt | hge
  · have hta : t = data := List.take_of_length_le (by omega)
    obtain ⟨c, r, _, _, h3, h4⟩ := b2 hcst hlt
    rw [hf] at h3
    rw [Except.ok.inj h3]
    exact only c r.data (by rw [hta]; exact h4 he)
  · obtain ⟨c, r, bs, _, _, h3, h4⟩ := b3 hcst hge he
    rw [hf] at h3
    rw [Except.ok.inj h3]
    exact only c bs h4

/-- Nothing of this holds of a chunk that starts with NaN: it is stored in single bytes and an ordinary 1000 comes back as 255. -/
theorem C123_refuted_nan_first (E : Ext) : ∃ bs out, Compressor.rle.compress E [FP.nan, F64.lit 1000] = .ok bs ∧
    Compressor.rle.decompress E 2 bs = .ok out ∧ out = [F64.lit 0, F64.lit 255] := by
  refine ⟨(IndexRLE.new [FP.nan, F64.lit 1000] .u8).enc, [F64.lit 0, F64.lit 255], ?_, ?_, rfl⟩
  · rw [rle_compress_eq]; decide +kernel
  · rw [rle_decompress_eq]; decide +kernel

/-- An infinity in the chunk has the same effect on an ordinary sample. -/
theorem C123_refuted_infinity (E : Ext) : ∃ bs out, Compressor.rle.compress E [F64.lit 5, F64.lit 1000, FP.inf false] = .ok bs ∧
    Compressor.rle.decompress E 3 bs = .ok out ∧ out = [F64.lit 5, F64.lit 255, F64.lit 255] := by
  refine ⟨(IndexRLE.new [F64.lit 5, F64.lit 1000, FP.inf false] .u8).enc, [F64.lit 5, F64.lit 255, F64.lit 255], ?_, ?_, rfl⟩
  · rw [rle_compress_eq]; decide +kernel
  · rw [rle_decompress_eq]; decide +kernel

/-- With Auto a NaN among equal samples vanishes without a trace: 7, NaN, 7 is stored as the constant 7 and comes back as 7, 7, 7, whatever the bound and the level. -/
theorem C123_refuted_auto (E : Ext) (hE : E.Lawful) (p : Profile) (e : F32) (speed : Nat) (hsp : speed ≤ 6) :
    (ChunkOp.bounded [F64.lit 7, FP.nan, F64.lit 7] .auto e speed).alone E p = .ok [F64.lit 7, F64.lit 7, F64.lit 7] := by
  obtain ⟨st, hst⟩ := stats_ok (data := [F64.lit 7, FP.nan, F64.lit 7]) (by simp)
  have hmin : (DataStats.new [F64.lit 7, FP.nan, F64.lit 7]).map (fun st => (st.min, st.max, st.bitdepth)) = .ok (F64.lit 7, F64.lit 7, .u8) := by
    decide +kernel
  rw [hst] at hmin
  have hmin := Except.ok.inj hmin
  have h1 : st.min = F64.lit 7 := congrArg (·.1) hmin
  have h2 : st.max = F64.lit 7 := congrArg (·.2.1) hmin
  have h3 : st.bitdepth = .u8 := congrArg (·.2.2) hmin
  have hb := (best_cases E hE (Frame.new (some .auto)) _ (by simp) e speed hsp st hst).1 (by rw [h1, h2]; decide +kernel)
  have hf : (ChunkOp.bounded [F64.lit 7, FP.nan, F64.lit 7] .auto e speed).frame E = .ok _ := hb
  rw [alone_eq hf]
  have hdata : (constantCompressor [F64.lit 7, FP.nan, F64.lit 7] st).data = (Constant.new (F64.lit 7) .u8).enc := by
    show (Constant.new st.min st.bitdepth).enc = _
    rw [h1, h3]
  rw [hdata]
  show constantToData _ _ = _
  rw [constantToData_enc]
  decide +kernel

/-! ### Non-vacuity -/

/-- One half: in range and not an integer. -/
def oneHalf : F64 := ⟨false, ⟨1022 * 2 ^ 52, by decide⟩⟩
theorem oneHalf_val : oneHalf.val = 1 / 2 := by
  unfold FP.val oneHalf; norm_num

/-- The fraction theorem applies to a chunk with NaN and both infinities. -/
example : oneHalf ∈ [FP.nan, FP.inf true, oneHalf, FP.inf false] ∧ InRange oneHalf ∧ ∀ n : ℤ, oneHalf.val ≠ n := by
  refine ⟨by simp, Or.inr ?_, fun n h => ?_⟩
  · rw [oneHalf_val]; norm_num
  · rw [oneHalf_val] at h
    have h2 : ((2 * n : ℤ) : ℚ) = (1 : ℤ) := by push_cast; rw [← h]; norm_num
    have := Int.cast_injective h2
    omega

/-- Seven and a NaN after it. -/
example : F64.lit 7 ∈ [F64.lit 7, FP.nan] ∧ (F64.lit 7).isNaN = false ∧ (∀ x ∈ [F64.lit 7, FP.nan], x.isNaN = false → x.isFinite = true ∧ InRange x) := by
  refine ⟨by simp, by decide +kernel, fun x hx hn => ?_⟩
  rcases List.mem_cons.1 hx with rfl | hx
  · exact ⟨by decide +kernel, inRange_of_int (lit_val (by decide)).2 (by decide)⟩
  · rw [List.mem_singleton.1 hx, nan_isNaN64] at hn; exact absurd hn (by decide)

/-- A chunk Auto stores as RLE for a bound of 1. -/
def nanRamp : List F64 := [F64.lit 1, F64.lit 2, F64.lit 3, FP.nan, F64.lit 5, F64.lit 6]

example : 6 ≤ nanRamp.length ∧ (FP.zero : F32).le (FP.cvt (F64.lit 1)) = true ∧ (FP.cvt (FP.cvt (F64.lit 1) : F32) : F64).isFinite = true ∧
    (FP.cvt (FP.cvt (F64.lit 1) : F32) : F64) = F64.lit 1 ∧ F64.lit 1 ∈ nanRamp.take (sampleSize 0) ∧ F64.lit 2 ∈ nanRamp.take (sampleSize 0) ∧
    (FP.cvt (F64.lit 1) : F32).lt (FP.cvt (F64.lit 2)) = true ∧ (FP.nan : F64) ∈ nanRamp.take (sampleSize 0) ∧ (FP.nan : F64).isFinite = false := by
  have ht : nanRamp.take (sampleSize 0) = nanRamp := List.take_of_length_le (by decide)
  rw [ht]
  refine ⟨by decide, by decide +kernel, by decide +kernel, by decide +kernel, by decide +kernel, by decide +kernel, by decide +kernel, by decide +kernel, by decide +kernel⟩

end Atsc
