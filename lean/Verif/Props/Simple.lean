import Verif.Lemmas.Stream
import Verif.Lemmas.Round
import Verif.Spec.Dummy
/- C10-C15: RLE, Constant, Noop, chunk statistics and the recommended bit depth. -/
namespace Atsc
open FP

/-- Concrete data inside the safe range: 1, 1, -300, 1, with a repeated value in two runs. -/
def demoData : List F64 := [F64.lit 1, F64.lit 1, F64.lit (-300), F64.lit 1]

theorem lit_val {n : Int} (hn : n.natAbs ≤ 2 ^ 53) : (F64.lit n).isFinite = true ∧ (F64.lit n).val = n := by
  have h := F64.lit_exact hn
  exact ⟨h.2, (val_eq_int (by decide)).2 h.1⟩

theorem inRange_of_int {x : F64} {n : Int} (h : x.val = n) (hn : n.natAbs < 2 ^ 63) : InRange x := by
  unfold InRange
  rw [h]
  by_cases h0 : n = 0
  · left; rw [h0]; rfl
  · right
    have h1 : (1 : ℚ) ≤ |(n : ℚ)| := by
      rw [← Int.cast_abs]; exact_mod_cast Int.one_le_abs h0
    have h2 : |(n : ℚ)| < 2 ^ 63 := by
      rw [← Int.cast_abs]
      have : |n| < 2 ^ 63 := by rw [Int.abs_eq_natAbs]; exact_mod_cast hn
      exact_mod_cast this
    refine ⟨le_trans ?_ h1, by simpa using h2⟩
    norm_num

theorem demoData_safe : AllFinite demoData ∧ ∀ x ∈ demoData, InRange x := by
  refine ⟨by unfold AllFinite; decide +kernel, fun x hx => ?_⟩
  simp only [demoData, List.mem_cons, List.not_mem_nil, or_false] at hx
  rcases hx with rfl | rfl | rfl | rfl
  all_goals first
    | exact inRange_of_int (lit_val (by decide)).2 (by decide)

theorem stats_ok {data : List F64} (hne : data ≠ []) : ∃ st, DataStats.new data = .ok st := by
  cases data with
  | nil => exact absurd rfl hne
  | cons d0 r => exact ⟨_, rfl⟩

theorem castBD_val {data : List F64} (hfin : AllFinite data) (hr : ∀ x ∈ data, InRange x) {st : DataStats}
    (hst : DataStats.new data = .ok st) {x : F64} (hx : x ∈ data) :
    (castBD st.bitdepth x).val = x.val ∧ (castBD st.bitdepth x).isFinite = true := by
  have h := castBD_exact hfin (fun y hy => inRange_iff.1 (hr y hy)) hst hx
  refine ⟨(val_eq_iff (by decide)).2 h.1, ?_⟩
  have := hfin x hx
  unfold FP.isFinite at this ⊢
  rw [h.2]; exact this

theorem rle_compress_eq (E : Ext) (d : List F64) : Compressor.rle.compress E d =
    (DataStats.new d >>= fun st => .ok (rleCompressor d st).data) := rfl
theorem rle_decompress_eq (E : Ext) (n : Nat) (bs : Bytes) : Compressor.rle.decompress E n bs = rleToData n bs := rfl
theorem constant_compress_eq (E : Ext) (d : List F64) : Compressor.constant.compress E d =
    (DataStats.new d >>= fun st => .ok (constantCompressor d st).data) := rfl
theorem constant_decompress_eq (E : Ext) (n : Nat) (bs : Bytes) :
    Compressor.constant.decompress E n bs = constantToData n bs := rfl

/-! ### C11 -/

/-- C11: at every index RLE reproduces the stored form of the last value of the run containing that index (`j` is the end
of the run: consecutive samples from `i` to `j` are `==`, the next one is not).  No hypothesis on the samples. -/
theorem C11_rle_runs (E : Ext) (data : List F64) (hne : data ≠ []) (hlen : data.length < 2 ^ 64) :
    ∃ st bs out, DataStats.new data = .ok st ∧ Compressor.rle.compress E data = .ok bs ∧
      Compressor.rle.decompress E data.length bs = .ok out ∧ out.length = data.length ∧
      ∀ i, i < data.length → ∃ j, i ≤ j ∧ ∃ hj : j < data.length,
        (∀ k (_ : k + 1 < data.length), i ≤ k → k < j → (data[k + 1]).feq data[k] = true) ∧
        (∀ _ : j + 1 < data.length, (data[j + 1]).feq data[j] = false) ∧
        out[i]? = some (castBD st.bitdepth data[j]) := by
  obtain ⟨st, hst⟩ := stats_ok hne
  refine ⟨st, (IndexRLE.new data st.bitdepth).enc, expand (castBD st.bitdepth) data, hst, ?_, rle_roundtrip data _ hlen hne,
    expand_length _ _, fun i hi => expand_spec _ data i hi⟩
  simp only [Compressor.compress, hst, ok_bind, rleCompressor]

/-- C11: the bounded entry point and the candidate used by Auto produce the same bytes and claim error 0. -/
theorem C11_rle_bounded_same (E : Ext) (data : List F64) (e : F64) (bs : Bytes) (h : Compressor.rle.compress E data = .ok bs) :
    Compressor.rle.compressBounded E data e = .ok bs ∧
      Compressor.rle.boundedResults E data e = .ok { data := bs, error := FP.zero } := by
  unfold Compressor.compress at h
  obtain ⟨st, hst, h⟩ := bind_ok_iff.1 h
  injection h with h; subst h
  simp only [Compressor.compressBounded, Compressor.boundedResults, hst, ok_bind, true_and]
  rfl

/-! ### C10 -/

theorem feq_chain {data : List F64} {i j : Nat} (hij : i ≤ j) (hj : j < data.length)
    (hn : ∀ x ∈ data, x.isNaN = false)
    (h : ∀ k (_ : k + 1 < data.length), i ≤ k → k < j → (data[k + 1]).feq data[k] = true) :
    (data[j]).feq (data[i]'(by omega)) = true := by
  induction j with
  | zero =>
    obtain rfl : i = 0 := by omega
    exact feq_refl (hn _ (by simp))
  | succ j ih =>
    rcases Nat.eq_or_lt_of_le hij with rfl | hlt
    · exact feq_refl (hn _ (by simp))
    · exact feq_trans (h j hj (by omega) (by omega)) (ih (by omega) (by omega) fun k hk h1 h2 => h k hk h1 (by omega))

/-- C10: RLE followed by decompression returns equal values, for finite samples that are zero or
have a magnitude in `[2^-64, 2^63)`.  Outside that range (unless stored as f64, `C10_exact`) it is
false (`C10_refuted_large`, `C10_refuted_tiny`). -/
theorem C10_rle_lossless (E : Ext) (data : List F64) (hne : data ≠ []) (hlen : data.length < 2 ^ 64)
    (hfin : AllFinite data) (hr : ∀ x ∈ data, InRange x) :
    ∃ bs out, Compressor.rle.compress E data = .ok bs ∧ Compressor.rle.decompress E data.length bs = .ok out ∧
      SameValues out data := by
  obtain ⟨st, bs, out, hst, h1, h2, h3, h4⟩ := C11_rle_runs E data hne hlen
  refine ⟨bs, out, h1, h2, h3, fun i ha hb => ?_⟩
  obtain ⟨j, hij, hj, h5, _, h6⟩ := h4 i hb
  have hc := castBD_val hfin hr hst (List.getElem_mem hj)
  have hf := feq_chain hij hj (fun x hx => isFinite_not_nan (hfin x hx)) h5
  rw [List.getElem?_eq_getElem ha] at h6
  injection h6 with h6
  rw [h6]
  refine ⟨?_, hc.2, hfin _ (List.getElem_mem hb)⟩
  rw [hc.1]
  exact (val_eq_iff (by decide)).2 (feq_iff.1 hf).2.2

/-- C10, unrestricted magnitudes: when some in-range sample is not an integer, the samples are stored as f64 and every run
comes back bit for bit as its last sample (even NaN and infinities). -/
theorem C10_rle_exact_if_fractional (E : Ext) (data : List F64) (hlen : data.length < 2 ^ 64)
    (x : F64) (hx : x ∈ data) (hr : InRange x) (hfr : ∀ n : ℤ, x.val ≠ n) (hn : ∀ y ∈ data, y.isNaN = false) :
    ∃ bs out, Compressor.rle.compress E data = .ok bs ∧ Compressor.rle.decompress E data.length bs = .ok out ∧
      out.length = data.length ∧ ∀ i (ha : i < out.length) (hb : i < data.length), (out[i]).feq data[i] = true := by
  have hne : data ≠ [] := by rintro rfl; simp at hx
  obtain ⟨st, bs, out, hst, h1, h2, h3, h4⟩ := C11_rle_runs E data hne hlen
  have hbd : st.bitdepth = .f64 := by
    obtain ⟨st', a, g1, hinv, -, -, -, -, -, g6⟩ := stats_spec hne hn
    rw [hst] at g1; injection g1 with g1; subst g1
    rw [g6]
    have : a.fractional = true := by
      rw [hinv.frac, List.any_eq_true]
      refine ⟨x, hx, ?_⟩
      rw [Bool.not_eq_true']
      by_contra hc
      have hz : (splitN x).2.feq FP.zero = true := by simpa using hc
      have := splitN_int (inRange_iff.1 hr) hz
      exact hfr _ ((val_eq_int (by decide)).2 this)
    rw [this]; rfl
  refine ⟨bs, out, h1, h2, h3, fun i ha hb => ?_⟩
  obtain ⟨j, hij, hj, h5, _, h6⟩ := h4 i hb
  rw [List.getElem?_eq_getElem ha] at h6
  injection h6 with h6
  rw [h6, hbd]
  exact feq_chain hij hj hn h5

/-- C10 is false for large values: 2^64 comes back as 255. -/
theorem C10_refuted_large (E : Ext) : ∃ bs, Compressor.rle.compress E [F64.lit (2 ^ 64)] = .ok bs ∧
    Compressor.rle.decompress E 1 bs = .ok [F64.lit 255] := by
  refine ⟨[60, 3, 1, 255, 1, 0], ?_, ?_⟩
  · rw [rle_compress_eq]; decide +kernel
  · rw [rle_decompress_eq]; decide +kernel

/-- The positive number `2^-65`. -/
def tiny : F64 := ⟨false, ⟨958 * 2 ^ 52, by decide⟩⟩
theorem tiny_val : tiny.val = 2 ^ (-65 : ℤ) := by
  unfold FP.val tiny; norm_num

/-- C10 is false for tiny values: `2^-65` comes back as 0. -/
theorem C10_refuted_tiny (E : Ext) : ∃ bs, Compressor.rle.compress E [tiny] = .ok bs ∧
    Compressor.rle.decompress E 1 bs = .ok [F64.lit 0] := by
  refine ⟨[60, 3, 1, 0, 1, 0], ?_, ?_⟩
  · rw [rle_compress_eq]; decide +kernel
  · rw [rle_decompress_eq]; decide +kernel

example : demoData ≠ [] ∧ demoData.length < 2 ^ 64 ∧ AllFinite demoData ∧ ∀ x ∈ demoData, InRange x :=
  ⟨by simp [demoData], by decide, demoData_safe.1, demoData_safe.2⟩

/-! ### C12 -/

/-- C12: data whose samples all have the same in-range finite value come back with that value.
Outside zero and `[2^-64, 2^63)` see `C12_exact` and `C12_refuted_large`. -/
theorem C12_constant_lossless (E : Ext) (data : List F64) (hne : data ≠ []) (hfin : AllFinite data)
    (hr : ∀ x ∈ data, InRange x) (hc : ∀ x ∈ data, ∀ y ∈ data, x.val = y.val) :
    ∃ bs out, Compressor.constant.compress E data = .ok bs ∧ Compressor.constant.decompress E data.length bs = .ok out ∧
      SameValues out data := by
  obtain ⟨st, hst⟩ := stats_ok hne
  obtain ⟨st', a, g1, hinv, -, gmin, -⟩ := stats_spec hne fun y hy => isFinite_not_nan (hfin y hy)
  rw [hst] at g1; injection g1 with g1; subst g1
  have hmem : st.min ∈ data := by rw [gmin]; exact List.mem_of_getElem? hinv.min_at
  refine ⟨(Constant.new st.min st.bitdepth).enc, List.replicate data.length (castBD st.bitdepth st.min), ?_, ?_, ?_, ?_⟩
  · simp only [Compressor.compress, hst, ok_bind, constantCompressor]
  · exact constantToData_enc _ _ _
  · simp
  · intro i ha hb
    have hcv := castBD_val hfin hr hst hmem
    rw [List.getElem_replicate]
    exact ⟨by rw [hcv.1]; exact hc _ hmem _ (List.getElem_mem hb), hcv.2, hfin _ (List.getElem_mem hb)⟩

/-- C12 is false for large values: the constant chunk `[2^64, 2^64]` comes back as `[255, 255]`. -/
theorem C12_refuted_large (E : Ext) : ∃ bs, Compressor.constant.compress E [F64.lit (2 ^ 64), F64.lit (2 ^ 64)] = .ok bs ∧
    Compressor.constant.decompress E 2 bs = .ok [F64.lit 255, F64.lit 255] := by
  refine ⟨[30, 3, 255], ?_, ?_⟩
  · rw [constant_compress_eq]; decide +kernel
  · rw [constant_decompress_eq]; decide +kernel

/-- A large negative value meets the hypothesis `InRange`. -/
example : InRange (F64.lit (-2 ^ 52)) := inRange_of_int (lit_val (by decide)).2 (by decide)

/-! ### C13 -/

/-- The value a sample takes after Noop: nearest integer (halves away from zero), limited to the i64 range. -/
def noopValue (q : ℚ) : ℤ := max (-2 ^ 63) (min (2 ^ 63) (roundHalfAway q))

theorem noop_sample_finite (x : F64) (hx : x.isFinite = true) :
    (FP.ofInt (F64.toI64 x.round) : F64).isFinite = true ∧ (FP.ofInt (F64.toI64 x.round) : F64).val = noopValue x.val := by
  obtain ⟨h1, h2⟩ := FP.round_val (by decide) (by decide) x hx
  have hs := (val_eq_int (by decide)).1 h2
  set n := roundHalfAway x.val with hn
  have ht := truncInt_of_scaled hs
  have hnan := isFinite_not_nan h1
  unfold noopValue
  rw [← hn]
  by_cases hhi : 2 ^ 63 ≤ n
  · have e : F64.toI64 x.round = 2 ^ 63 - 1 := by
      unfold F64.toI64 FP.toInt; rw [hnan, ht]; simp only [Bool.false_eq_true, if_false]; omega
    rw [e, show max (-2 ^ 63) (min (2 ^ 63) n) = 2 ^ 63 by omega]
    exact ⟨by decide +kernel, (val_eq_int (by decide)).2 (by decide +kernel)⟩
  · by_cases hlo : n < -2 ^ 63
    · have e : F64.toI64 x.round = -2 ^ 63 := by
        unfold F64.toI64 FP.toInt; rw [hnan, ht]; simp only [Bool.false_eq_true, if_false]; omega
      rw [e, show max (-2 ^ 63) (min (2 ^ 63) n) = -2 ^ 63 by omega]
      exact ⟨by decide +kernel, (val_eq_int (by decide)).2 (by decide +kernel)⟩
    · have e : F64.toI64 x.round = n := toInt_of_scaled hnan hs (by omega) (by omega)
      rw [e, show max (-2 ^ 63) (min (2 ^ 63) n) = n by omega]
      have h3 := ofInt_scaled h1 hs
      refine ⟨?_, by rw [(val_eq_iff (by decide)).2 h3.1]; exact h2⟩
      unfold FP.isFinite at h1 ⊢
      rw [h3.2]; exact h1

/-- C13: Noop returns as many samples; every finite sample becomes the nearest integer (halves away from zero, limited to
the 64-bit range), NaN becomes 0 and the infinities the limits. -/
theorem C13_noop_nearest (E : Ext) (data : List F64) (hne : data ≠ []) (hlen : data.length < 2 ^ 64) :
    ∃ bs out, Compressor.noop.compress E data = .ok bs ∧ Compressor.noop.decompress E data.length bs = .ok out ∧
      out.length = data.length ∧
      ∀ i (ha : i < out.length) (hb : i < data.length), out[i].isFinite = true ∧
        (data[i].isFinite = true → (out[i]).val = noopValue (data[i]).val) ∧
        (data[i].isNaN = true → (out[i]).val = 0) ∧
        (data[i].isInf = true → (out[i]).val = if data[i].sign then -2 ^ 63 else 2 ^ 63) := by
  obtain ⟨st, hst⟩ := stats_ok hne
  refine ⟨noop data, _, ?_, noopToData_noop data data.length hlen, by simp, fun i ha hb => ?_⟩
  · simp only [Compressor.compress, hst, ok_bind]
  · simp only [List.getElem_map]
    generalize data[i] = x
    by_cases hf : x.isFinite = true
    · have hnn := isFinite_not_nan hf
      have hni := isFinite_not_inf hf
      exact ⟨(noop_sample_finite x hf).1, fun _ => (noop_sample_finite x hf).2, by simp [hnn], by simp [hni]⟩
    · have hrd : x.round = x := by unfold FP.round; simp [hf]
      rw [hrd]
      by_cases hn : x.isNaN = true
      · have e : F64.toI64 x = 0 := by unfold F64.toI64 FP.toInt; simp [hn]
        rw [e]
        have hni : x.isInf = false := by
          unfold FP.isNaN at hn; unfold FP.isInf; simp at hn ⊢; omega
        refine ⟨by decide +kernel, by simp [hf], fun _ => ?_, by simp [hni]⟩
        exact_mod_cast (val_eq_int (n := 0) (by decide)).2 (by decide +kernel)
      · have hinf : x.isInf = true := by
          rw [Bool.not_eq_true] at hf hn
          by_contra h; rw [Bool.not_eq_true] at h
          rw [isFinite_iff.2 ⟨hn, h⟩] at hf; cases hf
        obtain ⟨s, m⟩ := x
        have hm : m = ⟨infMag 52 11, infMag_lt 52 11⟩ := by
          unfold FP.isInf at hinf; simp at hinf; exact Fin.ext hinf
        subst hm
        rw [Bool.not_eq_true] at hn
        simp only [hf, hn, Bool.false_eq_true, false_implies, true_and]
        cases s
        · refine ⟨by decide +kernel, fun _ => ?_⟩
          have := (val_eq_int (mb := 52) (eb := 11) (n := 2 ^ 63)
            (x := FP.ofInt (F64.toI64 ⟨false, ⟨infMag 52 11, infMag_lt 52 11⟩⟩)) (by decide)).2 (by decide +kernel)
          rw [this]; norm_num
        · refine ⟨by decide +kernel, fun _ => ?_⟩
          have := (val_eq_int (mb := 52) (eb := 11) (n := -2 ^ 63)
            (x := FP.ofInt (F64.toI64 ⟨true, ⟨infMag 52 11, infMag_lt 52 11⟩⟩)) (by decide)).2 (by decide +kernel)
          rw [this]; norm_num

theorem roundHalfAway_near (q : ℚ) : |(roundHalfAway q : ℚ) - q| ≤ 1 / 2 := by
  unfold roundHalfAway
  split_ifs with h
  · have h1 := Int.floor_le (1 / 2 - q)
    have h2 := Int.lt_floor_add_one (1 / 2 - q)
    push_cast
    rw [abs_le]; constructor <;> linarith
  · have h1 := Int.floor_le (q + 1 / 2)
    have h2 := Int.lt_floor_add_one (q + 1 / 2)
    rw [abs_le]; constructor <;> linarith

theorem roundHalfAway_int (n : ℤ) : roundHalfAway n = n := by
  have h := roundHalfAway_near n
  have : |(roundHalfAway (n : ℚ)) - n| < 1 := by
    have h2 : |((roundHalfAway (n : ℚ) - n : ℤ) : ℚ)| ≤ 1 / 2 := by push_cast; exact h
    rw [← Int.cast_abs] at h2
    have : ((|roundHalfAway (n : ℚ) - n| : ℤ) : ℚ) < (1 : ℤ) := by push_cast at h2 ⊢; linarith
    exact_mod_cast this
  rw [Int.abs_lt_one_iff] at this; omega

/-- C13: below `2^63` the result is within one half of the sample. -/
theorem C13_noop_within_half (q : ℚ) (h : |q| < 2 ^ 63) : |(noopValue q : ℚ) - q| ≤ 1 / 2 := by
  have h1 := roundHalfAway_near q
  have hb : -2 ^ 63 ≤ roundHalfAway q ∧ roundHalfAway q ≤ 2 ^ 63 := by
    rw [abs_le] at h1; rw [abs_lt] at h
    constructor
    · have : ((-2 ^ 63 - 1 : ℤ) : ℚ) < roundHalfAway q := by push_cast; linarith [h1.1]
      have : (-2 ^ 63 - 1 : ℤ) < roundHalfAway q := by exact_mod_cast this
      omega
    · have : (roundHalfAway q : ℚ) < ((2 ^ 63 + 1 : ℤ) : ℚ) := by push_cast; linarith [h1.2]
      have : roundHalfAway q < 2 ^ 63 + 1 := by exact_mod_cast this
      omega
  unfold noopValue
  rw [show max (-2 ^ 63) (min (2 ^ 63) (roundHalfAway q)) = roundHalfAway q by omega]
  exact h1

/-- C13: integers in range come back unchanged, and halves go away from zero. -/
theorem C13_noop_integers (n : ℤ) (h : -2 ^ 63 ≤ n ∧ n ≤ 2 ^ 63) : noopValue n = n := by
  unfold noopValue; rw [roundHalfAway_int]; omega

example : noopValue (5 / 2) = 3 ∧ noopValue (-5 / 2) = -3 ∧ noopValue (2 ^ 70) = 2 ^ 63 := by
  refine ⟨?_, ?_, ?_⟩ <;> unfold noopValue roundHalfAway <;> norm_num

/-! ### C14 -/

/-- C14: the statistics of a non-empty finite chunk report its true extremes, at their first positions. -/
theorem C14_extremes (data : List F64) (hne : data ≠ []) (hfin : AllFinite data) :
    ∃ st, DataStats.new data = .ok st ∧
      data[st.minLoc]? = some st.min ∧ data[st.maxLoc]? = some st.max ∧
      (∀ x ∈ data, st.min.val ≤ x.val ∧ x.val ≤ st.max.val) ∧
      (∀ j x, j < st.minLoc → data[j]? = some x → st.min.val < x.val) ∧
      (∀ j x, j < st.maxLoc → data[j]? = some x → x.val < st.max.val) := by
  obtain ⟨st, a, h1, hinv, hmax, hmin, hml, hnl, -⟩ := stats_spec hne fun y hy => isFinite_not_nan (hfin y hy)
  refine ⟨st, h1, by rw [hnl, hmin]; exact hinv.min_at, by rw [hml, hmax]; exact hinv.max_at, fun x hx => ⟨?_, ?_⟩, ?_, ?_⟩
  · rw [val_le_iff (by decide), hmin]; exact hinv.min_le x hx
  · rw [val_le_iff (by decide), hmax]; exact hinv.max_le x hx
  · intro j x hj hx
    rw [val_lt_iff (by decide), hmin]; exact hinv.min_first j x (hnl ▸ hj) hx
  · intro j x hj hx
    rw [val_lt_iff (by decide), hmax]; exact hinv.max_first j x (hml ▸ hj) hx

/-- C14: an empty chunk has no statistics (index panic). -/
theorem C14_empty_panics : DataStats.new [] = .error .index := rfl

/-! ### C15 -/

/-- C15: for finite samples that are zero or have a magnitude in `[2^-64, 2^63)`, the recommended type
holds every sample exactly.  Other finite magnitudes: `C15_exact`, `C15_refuted`. -/
theorem C15_bitdepth_holds (data : List F64) (hfin : AllFinite data) (hr : ∀ x ∈ data, InRange x)
    (st : DataStats) (hst : DataStats.new data = .ok st) (x : F64) (hx : x ∈ data) :
    (castBD st.bitdepth x).val = x.val ∧ (castBD st.bitdepth x).isFinite = true := castBD_val hfin hr hst hx

/-- C15 is false in general: for the chunk `[0, 2^63]` the recommended type is u8. -/
theorem C15_refuted : ∃ st, DataStats.new [F64.lit 0, F64.lit (2 ^ 63)] = .ok st ∧ st.bitdepth = .u8 := by
  exact ⟨_, rfl, by decide +kernel⟩

example : ∃ st, DataStats.new demoData = .ok st ∧ st.bitdepth = .i16 ∧ st.min = F64.lit (-300) ∧ st.minLoc = 2 :=
  ⟨_, rfl, by decide +kernel, by decide +kernel, by decide +kernel⟩

end Atsc
