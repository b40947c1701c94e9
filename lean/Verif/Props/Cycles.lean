import Verif.Props.Default
import Verif.Spec.Cycles
/- C121: any number of compress/uncompress cycles, with any options. -/
namespace Atsc
open FP

/-- Rounding to five decimals gives 0 or at least (about) 0.00001, never something tiny. -/
theorem c5 : (F64.lit (10 ^ 5)).isFinite = true ∧ (F64.lit (10 ^ 5)).absVal ≠ 0 ∧ (F64.lit (10 ^ 5)).isNaN = false := by decide +kernel
theorem c5_one : 2 ^ qexp 52 11 ≤ ((F64.lit 1).div (F64.lit (10 ^ 5))).absVal * 2 ^ 64 := by decide +kernel
theorem c5_lit1 : (F64.lit 1).isNaN = false ∧ (F64.lit 1).absVal = 2 ^ qexp 52 11 := by decide +kernel
theorem c5_zero : (FP.zero : F64).div (F64.lit (10 ^ 5)) = FP.zero := by decide +kernel
theorem c5_mag : (F64.lit 1).mag.val ≤ infMag 52 11 := by decide +kernel

theorem round5_grid (v : F64) (h : (roundF64 v 5).isNaN = false) : (roundF64 v 5).val = 0 ∨ (2 : ℚ) ^ (-64 : ℤ) ≤ |(roundF64 v 5).val| := by
  obtain ⟨k1, k2, k3⟩ := c5
  rw [roundF64_nan v (by norm_num)] at h
  have hyv : (F64.lit (10 ^ 5)).val ≠ 0 := absVal_ne_zero_iff.1 k2
  have h0 : (v.mul (F64.lit (10 ^ 5))).isNaN = false := mul_not_nan h k1 hyv
  unfold roundF64
  dsimp only
  generalize v.mul (F64.lit (10 ^ 5)) = u at *
  clear h
  by_cases hz : u.round.absVal = 0
  · left
    have hv : u.round.val = 0 := by
      by_contra hc; exact absVal_ne_zero_iff.2 hc hz
    have hf : u.round.isFinite = true := by
      rw [isFinite_iff]
      refine ⟨round_not_nan h0, ?_⟩
      by_contra hc
      rw [Bool.not_eq_false] at hc
      have : u.round.mag.val = infMag 52 11 := by simpa [FP.isInf] using hc
      have h1 : u.round.absVal = magVal 52 (infMag 52 11) := by unfold FP.absVal; rw [this]
      rw [hz] at h1
      exact absurd h1 (by decide +kernel)
    rw [(div_congr_val hf (show (FP.zero : F64).isFinite = true by decide) (hv.trans zero64_small.2.symm)).1, c5_zero]
    exact zero64_small.2
  · right
    have hmag : (F64.lit 1).mag.val ≤ u.round.mag.val := by
      cases hf : u.isFinite with
      | true =>
        obtain ⟨r1, r2⟩ := FP.round_val (by decide) (by decide) u hf
        have h1 : (1 : ℚ) ≤ |u.round.val| := by
          have : roundHalfAway u.val ≠ 0 := by
            intro hc; rw [hc] at r2
            exact absVal_ne_zero_iff.1 hz (by simpa using r2)
          rw [r2]
          exact_mod_cast Int.one_le_abs this
        rw [abs_val (by decide), le_div_iff₀ (qpow_posQ 52 11), one_mul] at h1
        have h2 : (F64.lit 1).absVal ≤ u.round.absVal := by rw [c5_lit1.2]; exact_mod_cast h1
        by_contra hc
        have := magVal_lt_iff (mb := 52).2 (not_le.1 hc)
        unfold FP.absVal at h2
        omega
      | false =>
        have hr : u.round = u := by unfold FP.round; rw [if_neg (by rw [hf]; decide)]
        rw [hr]
        have : u.isInf = true := by
          by_contra hc
          rw [isFinite_iff.2 ⟨h0, by simpa using hc⟩] at hf; cases hf
        have hm : u.mag.val = infMag 52 11 := by simpa [FP.isInf] using this
        rw [hm]
        exact c5_mag
    have := div_mag_mono c5_lit1.1 (round_not_nan h0) k1 k2 hmag
    rw [abs_val (by decide)]
    have h2 : ((F64.lit 1).div (F64.lit (10 ^ 5))).absVal ≤ (u.round.div (F64.lit (10 ^ 5))).absVal := absVal_le_of_mag this
    have h3 := c5_one
    generalize (u.round.div (F64.lit (10 ^ 5))).absVal = A at *
    generalize ((F64.lit 1).div (F64.lit (10 ^ 5))).absVal = B at *
    rw [show (-64 : ℤ) = -((64 : Nat) : ℤ) from rfl, zpow_neg, zpow_natCast, ← one_div, div_le_div_iff₀ (by positivity) (qpow_posQ 52 11), one_mul]
    have h4 : 2 ^ qexp 52 11 ≤ A * 2 ^ 64 := le_trans h3 (Nat.mul_le_mul_right _ h2)
    exact_mod_cast h4

theorem cvt_widen {z : F32} (n1 : z.isFinite = true) : (FP.cvt (FP.cvt z : F64) : F32) = z := by
  obtain ⟨w1, w2⟩ := widen_val n1
  rw [cvt_finite_eq w1]
  have hv : ((FP.cvt z : F64).absVal : ℚ) / 2 ^ qexp 52 11 = (z.absVal : ℚ) / 2 ^ qexp 23 8 := by
    rw [← abs_val (by decide), ← abs_val (by decide), w2]
  have hn : (FP.cvt z : F64).absVal * 2 ^ qexp 23 8 = z.absVal * 2 ^ qexp 52 11 := by
    rw [div_eq_div_iff (qpow_posQ 52 11).ne' (qpow_posQ 23 8).ne'] at hv
    exact_mod_cast hv
  rw [hn, cvt_sign (isFinite_not_nan n1)]
  unfold ofRound FP.absVal
  rw [roundPat_exact 23 _ (qpow_pos 52 11)]
  have hm : z.mag.val < infMag 23 8 := by simpa [FP.isFinite] using n1
  obtain ⟨s, m⟩ := z
  unfold ofPat
  congr 1
  apply Fin.ext
  show min m.val (infMag 23 8) = m.val
  exact Nat.min_eq_left hm.le

theorem single_idem {x : F64} (hf : x.isFinite = true) (h : InRange x) : (toSingle (toSingle x)).val = (toSingle x).val ∧ (toSingle (toSingle x)).isFinite = true := by
  have ha := inRange_abs h
  obtain ⟨n1, -⟩ := narrow_err hf (le_trans ha (qpow_le (by norm_num)))
  have : toSingle (toSingle x) = toSingle x := by unfold toSingle; rw [cvt_widen n1]
  rw [this]
  exact ⟨rfl, (widen_val n1).1⟩

/-! ### One chunk -/

/-- `y` is between two samples of the chunk (after rounding them to single precision if `single`). -/
def Inside (single : Prop) (d : List F64) (y : F64) : Prop :=
  (∃ a ∈ d, a.isFinite = true ∧ (a.val ≤ y.val ∨ (single ∧ (toSingle a).val ≤ y.val))) ∧
  ∃ b ∈ d, b.isFinite = true ∧ (y.val ≤ b.val ∨ (single ∧ y.val ≤ (toSingle b).val))

def Kept (single : Prop) (d : List F64) (y : F64) : Prop := y.isNaN = true ∨ (y.isFinite = true ∧ MidSized y ∧ Inside single d y)

theorem MidSized.inRange {x : F64} (h : MidSized x) : InRange x := by
  rcases h with h | ⟨h1, h2⟩
  · exact .inl h
  · refine .inr ⟨h1, lt_of_le_of_lt h2 ?_⟩
    norm_num

theorem MidSized.abs_le {x : F64} (h : MidSized x) : |x.val| ≤ 2 ^ 62 := by
  rcases h with h | ⟨_, h2⟩
  · rw [h, abs_zero]; positivity
  · exact h2

theorem MidSized.of_val {x y : F64} (h : MidSized x) (hv : y.val = x.val) : MidSized y := by
  unfold MidSized; rw [hv]; exact h

theorem toSingle_le {a b : F64} (ha : a.isNaN = false) (hb : b.isNaN = false) (h : a.val ≤ b.val) : (toSingle a).val ≤ (toSingle b).val := by
  have h1 : a.le b = true := le_iff.2 ⟨ha, hb, (val_le_iff (by decide)).1 h⟩
  have h2 : (toSingle a).le (toSingle b) = true := cvt_mono infMag32_pos (cvt_mono infMag64_pos h1)
  exact (val_le_iff (by decide)).2 (le_iff.1 h2).2.2

/-- `±2^k` with biased exponent `e`. -/
def powF (s : Bool) (e : Nat) (he : e < 2047) : F64 := ⟨s, ⟨e * 2 ^ 52, by omega⟩⟩

theorem lo_pat (s : Bool) : toSingle (powF s 959 (by decide)) = powF s 959 (by decide) ∧ (powF s 959 (by decide)).isNaN = false ∧
    (powF s 959 (by decide)).absVal * 2 ^ 64 = 2 ^ qexp 52 11 := by cases s <;> decide +kernel
theorem hi_pat (s : Bool) : toSingle (powF s 1085 (by decide)) = powF s 1085 (by decide) ∧ (powF s 1085 (by decide)).isNaN = false ∧
    (powF s 1085 (by decide)).absVal = 2 ^ qexp 52 11 * 2 ^ 62 := by cases s <;> decide +kernel


theorem lo_val (s : Bool) : (powF s 959 (by decide)).val = sgn s * (2 : ℚ) ^ (-64 : ℤ) := by
  obtain ⟨-, -, h⟩ := lo_pat s
  rw [val_sgn (by decide)]
  show sgn s * _ = _
  congr 1
  have h' : ((powF s 959 (by decide)).absVal : ℚ) * 2 ^ 64 = 2 ^ qexp 52 11 := by exact_mod_cast h
  rw [← h', show (-64 : ℤ) = -((64 : Nat) : ℤ) from rfl, zpow_neg, zpow_natCast]
  have hne : ((powF s 959 (by decide)).absVal : ℚ) ≠ 0 := by
    intro hc; rw [hc, zero_mul] at h'; exact absurd h'.symm (qpow_posQ 52 11).ne'
  generalize ((powF s 959 (by decide)).absVal : ℚ) = A at *
  field_simp

theorem hi_val (s : Bool) : (powF s 1085 (by decide)).val = sgn s * (2 : ℚ) ^ 62 := by
  obtain ⟨-, -, h⟩ := hi_pat s
  rw [val_sgn (by decide)]
  show sgn s * _ = _
  congr 1
  have h' : ((powF s 1085 (by decide)).absVal : ℚ) = 2 ^ qexp 52 11 * 2 ^ 62 := by
    generalize (powF s 1085 (by decide)).absVal = A at h ⊢
    rw [h, Nat.cast_mul, Nat.cast_pow, Nat.cast_pow, Nat.cast_ofNat]
  rw [h', mul_div_cancel_left₀ _ (qpow_posQ 52 11).ne']

theorem lo_ex (s : Bool) : ∃ A : F64, toSingle A = A ∧ A.isNaN = false ∧ A.val = sgn s * (2 : ℚ) ^ (-64 : ℤ) :=
  ⟨_, (lo_pat s).1, (lo_pat s).2.1, lo_val s⟩
theorem hi_ex (s : Bool) : ∃ A : F64, toSingle A = A ∧ A.isNaN = false ∧ A.val = sgn s * (2 : ℚ) ^ 62 :=
  ⟨_, (hi_pat s).1, (hi_pat s).2.1, hi_val s⟩

theorem toSingle_mid {x : F64} (hf : x.isFinite = true) (h : MidSized x) : (toSingle x).isFinite = true ∧ MidSized (toSingle x) := by
  obtain ⟨s1, -, s3⟩ := toSingle_err hf h.inRange
  refine ⟨s1, ?_⟩
  rcases h with h | ⟨h1, h2⟩
  · left
    rw [h, sub_zero, abs_zero, zero_div] at s3
    exact abs_eq_zero.1 (le_antisymm s3 (abs_nonneg _))
  · right
    have hx := isFinite_not_nan hf
    obtain ⟨A0, p0, n0, l0⟩ := lo_ex false
    obtain ⟨A1, p1, n1, l1⟩ := lo_ex true
    obtain ⟨B0, q0, m0, u0⟩ := hi_ex false
    obtain ⟨B1, q1, m1, u1⟩ := hi_ex true
    rw [show sgn false = 1 from rfl, one_mul] at l0 u0
    rw [show sgn true = -1 from rfl, neg_one_mul] at l1 u1
    generalize (2 : ℚ) ^ (-64 : ℤ) = t at *
    generalize (2 : ℚ) ^ 62 = u at *
    have hab := abs_le.1 h2
    constructor
    · rcases le_abs.1 h1 with h | h
      · have := toSingle_le n0 hx (by rw [l0]; exact h)
        rw [p0, l0] at this
        exact le_trans this (le_abs_self _)
      · have := toSingle_le hx n1 (by rw [l1]; linarith)
        rw [p1, l1] at this
        exact le_trans (by linarith) (neg_le_abs _)
    · have a1 := toSingle_le m1 hx (by rw [u1]; exact hab.1)
      have a2 := toSingle_le hx m0 (by rw [u0]; exact hab.2)
      rw [q1, u1] at a1
      rw [q0, u0] at a2
      exact abs_le.2 ⟨a1, a2⟩

theorem clamp_mid {lo hi y : F64} (hl : lo.isFinite = true) (hh : hi.isFinite = true) (ml : MidSized lo) (mh : MidSized hi)
    (hf : y = lo ∨ y = hi ∨ ∃ v, y = roundF64 v 5) (h1 : lo.le y = true) (h2 : y.le hi = true) : y.isFinite = true ∧ MidSized y := by
  obtain ⟨f1, f2⟩ := between_finite hl hh ml.abs_le mh.abs_le h1 h2
  refine ⟨f1, ?_⟩
  rcases hf with rfl | rfl | ⟨v, rfl⟩
  · exact ml
  · exact mh
  · rcases round5_grid v (isFinite_not_nan f1) with h | h
    · exact .inl h
    · exact .inr ⟨h, f2⟩

/-- Polynomial and IDW. -/
theorem poly_kept (E : Ext) (ty : PolyType) (data : List F64) (hne : data ≠ []) (hlen : data.length < 2 ^ 62) (hf : AllFinite data)
    (hm : ∀ x ∈ data, MidSized x) (e : F64) (sg : Prop) :
    ∃ bs out, ty.comp.compressBounded E data e = .ok bs ∧ ty.comp.decompress E data.length bs = .ok out ∧ ∀ y ∈ out, Kept sg data y := by
  have hn : ∀ y ∈ data, y.isNaN = false := fun y hy => isFinite_not_nan (hf y hy)
  obtain ⟨st, hst⟩ := stats_ok hne
  obtain ⟨hminm, hmaxm, hrange⟩ := stats_range hne hn hst
  have hle : st.min.le st.max = true := (hrange _ hmaxm).1
  rw [(comp_bounded E ty data hne e).2]
  obtain ⟨c, r, h1, h2, h3⟩ := poly_bounded_cases E data hne ty e st hst
  have hc : c = Poly.start st ty ∨ ∃ k, 1 ≤ k ∧ k ≤ 133 ∧ c = (Poly.start st ty).stored data k := by
    rcases h3 with ⟨_, h, _⟩ | ⟨_, _, h⟩ | ⟨_, _, s, hs, rfl, _⟩
    · exact Or.inl h
    · exact Or.inl h
    · exact Or.inr (polyDone_stored hs)
  have hn1 : 1 ≤ data.length := List.length_pos_of_ne_nil hne
  have hseen : c.dataPoints.length < 2 ^ 64 ∧ c.seen.min = st.min ∧ c.seen.max = st.max ∧ c.seen.pointStep ≠ 0 := by
    rcases hc with rfl | ⟨k, k1, k2, rfl⟩
    · exact ⟨Nat.two_pow_pos 64, rfl, rfl, by show 1 % 256 ≠ 0; decide⟩
    · refine ⟨lt_of_le_of_lt (stored_length_le hn1 k1 _) (by omega), rfl, rfl, ?_⟩
      show k % 256 % 256 ≠ 0
      omega
  obtain ⟨l1, l2, l3, l4⟩ := hseen
  have key : ∀ y : F64, (y = st.min ∨ y = st.max ∨ ∃ v, y = roundF64 v 5) → st.min.le y = true → y.le st.max = true → Kept sg data y := by
    intro y hy b1 b2
    obtain ⟨f1, f2⟩ := clamp_mid (hf _ hminm) (hf _ hmaxm) (hm _ hminm) (hm _ hmaxm) hy b1 b2
    exact .inr ⟨f1, f2, ⟨_, hminm, hf _ hminm, .inl ((val_le_iff (by decide)).2 (le_iff.1 b1).2.2)⟩,
      ⟨_, hmaxm, hf _ hmaxm, .inl ((val_le_iff (by decide)).2 (le_iff.1 b2).2.2)⟩⟩
  rw [h1, ok_bind]
  refine ⟨r.data, ?_⟩
  rw [comp_decompress, h2, polyToData_enc E _ c l1]
  unfold Poly.toData
  split_ifs with hcc
  · refine ⟨_, rfl, rfl, fun y hy => ?_⟩
    obtain rfl := List.eq_of_mem_replicate hy
    rw [l3]
    exact key _ (.inr (.inl rfl)) hle (le_iff.2 ⟨hn _ hmaxm, hn _ hmaxm, le_refl _⟩)
  · obtain ⟨out, o1, o2, o3⟩ := interpolate_ok E c.seen data.length hn1 l4
    refine ⟨out, rfl, o1, fun y hy => ?_⟩
    obtain ⟨v, rfl⟩ := o3 y hy
    rw [l2, l3]
    obtain ⟨k1, k2⟩ := C32_clamped v st.min st.max 5 (by norm_num) hle
    cases hv : v.isNaN with
    | true => exact .inl (k2 hv)
    | false =>
      refine key _ ?_ (k1 hv).1 (k1 hv).2
      rw [roundAndLimit_eq]
      split_ifs
      · exact .inl rfl
      · exact .inr (.inl rfl)
      · exact .inr (.inr ⟨v, rfl⟩)

/-- FFT. -/
theorem fft_kept_inside (E : Ext) (hE : E.Lawful) (data : List F64) (hne : data ≠ []) (hlen : data.length < 2 ^ 62) (hf : AllFinite data)
    (hm : ∀ x ∈ data, MidSized x) (e : F64) (sg : Prop) (hsg : sg) :
    ∃ bs out, Compressor.fft.compressBounded E data e = .ok bs ∧ Compressor.fft.decompress E data.length bs = .ok out ∧ ∀ y ∈ out, Kept sg data y := by
  have hn : ∀ y ∈ data, y.isNaN = false := fun y hy => isFinite_not_nan (hf y hy)
  obtain ⟨st, hst⟩ := stats_ok hne
  obtain ⟨hminm, hmaxm, hrange⟩ := stats_range hne hn hst
  obtain ⟨fs, r, _, h3, h4, h5, h6⟩ := fft_bounded_freqs E hE data hne hlen e st hst
  have hle : (toSingle st.min).le (toSingle st.max) = true := cvt_mono infMag32_pos (cvt_mono infMag64_pos (hrange _ hmaxm).1)
  obtain ⟨-, hn2, -⟩ := le_iff.1 hle
  obtain ⟨lf, lm⟩ := toSingle_mid (hf _ hminm) (hm _ hminm)
  obtain ⟨uf, um⟩ := toSingle_mid (hf _ hmaxm) (hm _ hmaxm)
  have key : ∀ y : F64, (y = toSingle st.min ∨ y = toSingle st.max ∨ ∃ v, y = roundF64 v 5) → (toSingle st.min).le y = true → y.le (toSingle st.max) = true →
      Kept sg data y := by
    intro y hy b1 b2
    obtain ⟨f1, f2⟩ := clamp_mid lf uf lm um hy b1 b2
    exact .inr ⟨f1, f2, ⟨_, hminm, hf _ hminm, .inr ⟨hsg, (val_le_iff (by decide)).2 (le_iff.1 b1).2.2⟩⟩,
      ⟨_, hmaxm, hf _ hmaxm, .inr ⟨hsg, (val_le_iff (by decide)).2 (le_iff.1 b2).2.2⟩⟩⟩
  refine ⟨r.data, ?_⟩
  rw [h3, h4]
  set c : Fft := { Fft.start st with frequencies := fs } with hcdef
  have hdec : Compressor.fft.decompress E data.length c.enc = c.toData E data.length := by
    simp only [Compressor.decompress, fftToData]
    rw [fft_unwrap c h5, ok_bind]
    rfl
  rw [hdec]
  cases hc : c.maxValue.feq c.minValue with
  | true =>
    unfold Fft.toData
    rw [if_pos hc]
    refine ⟨_, rfl, rfl, fun y hy => ?_⟩
    obtain rfl := List.eq_of_mem_replicate hy
    exact key _ (.inr (.inl rfl)) hle (le_iff.2 ⟨hn2, hn2, le_refl _⟩)
  | false =>
    rw [toData_window E hE c _ hc]
    obtain ⟨out, o1, o2, o3⟩ := reconstruct_ok hE c (paddedLen data.length) h6
    rw [o1, ok_bind]
    refine ⟨_, rfl, rfl, fun y hy => ?_⟩
    obtain ⟨v, rfl⟩ := o3 y (List.drop_subset _ _ (List.take_subset _ _ hy))
    cases hyn : (c.round v 5).isNaN with
    | true => exact .inl hyn
    | false =>
      obtain ⟨k1, k2⟩ := fftRound_range c v hle hyn
      refine key _ ?_ k1 k2
      rw [fftRound_eq]
      split_ifs
      · exact .inr (.inl rfl)
      · exact .inl rfl
      · exact .inr (.inr ⟨_, rfl⟩)

theorem kept_same {data : List F64} {y x : F64} (hx : x ∈ data) (hf : x.isFinite = true) (hm : MidSized x) (hv : y.val = x.val) (hy : y.isFinite = true)
    (sg : Prop) : Kept sg data y :=
  .inr ⟨hy, hm.of_val hv, ⟨x, hx, hf, .inl hv.ge⟩, ⟨x, hx, hf, .inl hv.le⟩⟩

theorem rle_kept (E : Ext) (data : List F64) (hne : data ≠ []) (hlen : data.length < 2 ^ 62) (hf : AllFinite data)
    (hm : ∀ x ∈ data, MidSized x) (sg : Prop) :
    ∃ bs out, Compressor.rle.compress E data = .ok bs ∧ Compressor.rle.decompress E data.length bs = .ok out ∧ ∀ y ∈ out, Kept sg data y := by
  obtain ⟨bs, out, h1, h2, h3, h4⟩ := C10_rle_lossless E data hne (by omega) hf (fun x hx => (hm x hx).inRange)
  refine ⟨bs, out, h1, h2, fun y hy => ?_⟩
  obtain ⟨i, hi, rfl⟩ := List.getElem_of_mem hy
  obtain ⟨v, w, _⟩ := h4 i hi (by omega)
  exact kept_same (List.getElem_mem (by omega)) (hf _ (List.getElem_mem _)) (hm _ (List.getElem_mem _)) v w sg

theorem constant_kept (E : Ext) (data : List F64) (hne : data ≠ []) (hf : AllFinite data)
    (hm : ∀ x ∈ data, MidSized x) (sg : Prop) :
    ∃ bs out, Compressor.constant.compress E data = .ok bs ∧ Compressor.constant.decompress E data.length bs = .ok out ∧ ∀ y ∈ out, Kept sg data y := by
  have hn : ∀ y ∈ data, y.isNaN = false := fun y hy => isFinite_not_nan (hf y hy)
  obtain ⟨st, hst⟩ := stats_ok hne
  obtain ⟨hminm, hmaxm, hrange⟩ := stats_range hne hn hst
  refine ⟨(Constant.new st.min st.bitdepth).enc, List.replicate data.length (castBD st.bitdepth st.min), ?_, ?_, fun y hy => ?_⟩
  · simp only [Compressor.compress, hst, ok_bind, constantCompressor]
  · rw [constant_decompress_eq, constantToData_enc]
  · obtain rfl := List.eq_of_mem_replicate hy
    obtain ⟨v, w⟩ := castBD_val hf (fun x hx => (hm x hx).inRange) hst hminm
    exact kept_same hminm (hf _ hminm) (hm _ hminm) v w sg

theorem auto_kept (E : Ext) (hE : E.Lawful) (data : List F64) (hne : data ≠ []) (hlen : data.length < 2 ^ 62) (hf : AllFinite data)
    (hm : ∀ x ∈ data, MidSized x) (e : F32) (he : (FP.zero : F32).le e = true) (speed : Nat) (hs : speed ≤ 6) (sg : Prop) (hsg : sg) :
    ∃ f out, (Frame.new (some .auto)).compressBest E data e speed = .ok f ∧ f.decompress E = .ok out ∧ ∀ y ∈ out, Kept sg data y := by
  obtain ⟨st, hst⟩ := stats_ok hne
  obtain ⟨b1, b2, b3⟩ := best_cases E hE (Frame.new (some .auto)) data hne e speed hs st hst
  have key : ∀ (c : Compressor) (r : CResult), c.rank.isSome → c.boundedResults E data (FP.cvt e) = .ok r →
      ∃ out, c.decompress E data.length r.data = .ok out ∧ ∀ y ∈ out, Kept sg data y := by
    intro c r hc hr
    have hb := results_compress hr
    cases c <;> simp only [Compressor.rank, Option.isSome, Bool.false_eq_true] at hc
    · obtain ⟨bs, out, h1, h2, h3⟩ := fft_kept_inside E hE data hne hlen hf hm (FP.cvt e) sg hsg
      rw [hb] at h1; obtain rfl := Except.ok.inj h1
      exact ⟨out, h2, h3⟩
    · obtain ⟨bs, out, h1, h2, h3⟩ := poly_kept E .polynomial data hne hlen hf hm (FP.cvt e) sg
      have hb : PolyType.polynomial.comp.compressBounded E data (FP.cvt e) = .ok r.data := hb
      rw [hb] at h1; obtain rfl := Except.ok.inj h1
      exact ⟨out, h2, h3⟩
    · obtain ⟨bs, out, h1, h2, h3⟩ := rle_kept E data hne hlen hf hm sg
      rw [(C11_rle_bounded_same E data (FP.cvt e) bs h1).1] at hb
      obtain rfl := Except.ok.inj hb
      exact ⟨out, h2, h3⟩
  cases hc : st.min.feq st.max with
  | true =>
    obtain ⟨bs, out, h1, h2, h3⟩ := constant_kept E data hne hf hm sg
    rw [constant_compress_eq, hst, ok_bind] at h1
    obtain rfl := Except.ok.inj h1
    exact ⟨_, out, b1 hc, h2, h3⟩
  | false =>
    rcases Nat.lt_or_ge data.length (sampleSize speed) with hl | hl
    · obtain ⟨c, r, h1, h2, h3, _⟩ := b2 hc hl
      obtain ⟨out, o1, o2⟩ := key c r h1 h2
      exact ⟨_, out, h3, o1, o2⟩
    · obtain ⟨c, r, _, h1, h2, h3, _⟩ := b3 hc hl he
      obtain ⟨out, o1, o2⟩ := key c r h1 h2
      exact ⟨_, out, h3, o1, o2⟩

/-- One chunk of the command line, any compressor but `noop`. -/
theorem op_kept (E : Ext) (hE : E.Lawful) (p : Profile) (a : CompArgs) (ha : a.Valid) (hno : a.compressor ≠ .noop) (sg : Prop)
    (hsg : a.compressor = .fft ∨ a.compressor = .auto → sg) (data : List F64) (hne : data ≠ []) (hlen : data.length < 2 ^ 62) (hf : AllFinite data)
    (hm : ∀ x ∈ data, MidSized x) :
    ∃ out, (a.compressor.call data a.bound a.level).alone E p = .ok out ∧ ∀ y ∈ out, Kept sg data y := by
  have use : ∀ (c : Compressor) (bs : Bytes) (out : List F64), c.compress E data = .ok bs → c.decompress E data.length bs = .ok out →
      (ChunkOp.using data c).alone E p = .ok out := by
    intro c bs out h1 h2
    have hfr : (ChunkOp.using data c).frame E = .ok { Frame.new (some c) with sampleCount := data.length, data := bs } := by
      show c.compress E data >>= _ = _
      rw [h1, ok_bind]
    rw [alone_eq hfr]
    exact h2
  have bnd : ∀ (c : Compressor) (bs : Bytes) (out : List F64), c ≠ .auto → c.compressBounded E data (FP.cvt a.bound) = .ok bs →
      c.decompress E data.length bs = .ok out → (ChunkOp.bounded data c a.bound a.level).alone E p = .ok out := by
    intro c bs out hc h1 h2
    have hfr : (ChunkOp.bounded data c a.bound a.level).frame E = .ok { Frame.new (some c) with sampleCount := data.length, data := bs } := by
      have : (ChunkOp.bounded data c a.bound a.level).frame E = (Frame.new (some c)).compressBounded E data a.bound := by
        cases c <;> first | rfl | exact absurd rfl hc
      rw [this]
      show c.compressBounded E data (FP.cvt a.bound) >>= _ = _
      rw [h1, ok_bind]
    rw [alone_eq hfr]
    exact h2
  cases hc : a.compressor with
  | noop => exact absurd hc hno
  | constant =>
    obtain ⟨bs, out, h1, h2, h3⟩ := constant_kept E data hne hf hm sg
    exact ⟨out, use _ _ _ h1 h2, h3⟩
  | rle =>
    obtain ⟨bs, out, h1, h2, h3⟩ := rle_kept E data hne hlen hf hm sg
    exact ⟨out, use _ _ _ h1 h2, h3⟩
  | fft =>
    obtain ⟨bs, out, h1, h2, h3⟩ := fft_kept_inside E hE data hne hlen hf hm (FP.cvt a.bound) sg (hsg (.inl hc))
    exact ⟨out, bnd _ _ _ (by decide) h1 h2, h3⟩
  | polynomial =>
    obtain ⟨bs, out, h1, h2, h3⟩ := poly_kept E .polynomial data hne hlen hf hm (FP.cvt a.bound) sg
    exact ⟨out, bnd .polynomial _ _ (by decide) h1 h2, h3⟩
  | idw =>
    obtain ⟨bs, out, h1, h2, h3⟩ := poly_kept E .idw data hne hlen hf hm (FP.cvt a.bound) sg
    exact ⟨out, bnd .idw _ _ (by decide) h1 h2, h3⟩
  | auto =>
    obtain ⟨f, out, h1, h2, h3⟩ := auto_kept E hE data hne hlen hf hm a.bound (bound_nonneg ha.1) a.level ha.2 sg (hsg (.inr hc))
    have hfr : (ChunkOp.bounded data .auto a.bound a.level).frame E = .ok f := h1
    refine ⟨out, ?_, h3⟩
    show (ChunkOp.bounded data .auto a.bound a.level).alone E p = .ok out
    rw [alone_eq hfr]
    exact h2

/-! ### One cycle -/

theorem Kept.mono {sg : Prop} {c d : List F64} {y : F64} (h : Kept sg c y) (hs : ∀ x ∈ c, x ∈ d) : Kept sg d y := by
  rcases h with h | ⟨h1, h2, ⟨a, a1, a2⟩, ⟨b, b1, b2⟩⟩
  · exact .inl h
  · exact .inr ⟨h1, h2, ⟨a, hs a a1, a2⟩, ⟨b, hs b b1, b2⟩⟩

theorem Cycle.len {E : Ext} (hE : E.Lawful) {p : Profile} {a : CompArgs} (ha : a.Valid) {d d' : List F64} (hp : FewEnough p d) (h : Cycle E p a d d') :
    d'.length = (finiteSamples d).length := by
  obtain ⟨bs, h1, h2, h3⟩ := h
  obtain ⟨bs', k1, k2⟩ := C54_end_to_end E hE p d a ha hp
  rw [h1] at k1; obtain rfl := Except.ok.inj k1
  obtain ⟨out, o1, o2⟩ := k2 h2
  rw [h3] at o1; obtain rfl := Except.ok.inj o1
  exact o2

theorem Cycle.few {E : Ext} (hE : E.Lawful) {p : Profile} {a : CompArgs} (ha : a.Valid) {d d' : List F64} (hp : FewEnough p d) (h : Cycle E p a d d') :
    FewEnough p d' := by
  intro hd
  have := hp hd
  rw [h.len hE ha hp]
  exact lt_of_le_of_lt (List.length_filter_le _ _) this

theorem Cycle.kept {E : Ext} (hE : E.Lawful) {p : Profile} {a : CompArgs} (ha : a.Valid) (hno : a.compressor ≠ .noop) {sg : Prop}
    (hsg : a.compressor = .fft ∨ a.compressor = .auto → sg) {d d' : List F64} (hp : FewEnough p d) (hm : ∀ x ∈ d, x.isFinite = true → MidSized x)
    (h : Cycle E p a d d') : ∀ y ∈ d', Kept sg d y := by
  obtain ⟨bs, h1, h2, h3⟩ := h
  obtain ⟨ex, s, p1, p2, p3, p4, p5⟩ := pipeline E hE p d a ha hp
  rw [p2] at h1; obtain rfl := Except.ok.inj h1
  rw [decompressData_ok p1 (fun x hx => (p4 x hx).2.2.1) h2] at h3
  obtain ⟨outs, o1, o2⟩ := concat_outs (E := E) (p := p) (a := a) (fun c out => ∀ y ∈ out, Kept sg d y) ex (fun x hx => by
    obtain ⟨q1, q2, q3, q4⟩ := p4 x hx
    have hsub : ∀ y ∈ x.2, y ∈ d := by
      intro y hy
      have : y ∈ finiteSamples d := by
        rw [← p3]
        exact List.mem_flatten.2 ⟨x.2, List.mem_map.2 ⟨x, hx, rfl⟩, hy⟩
      exact (List.mem_filter.1 this).1
    rw [op_is_call a x q1]
    obtain ⟨out, w1, w2⟩ := op_kept E hE p a ha hno sg hsg x.2 (List.ne_nil_of_length_pos q2) (by omega) q4 (fun y hy => hm y (hsub y hy) (q4 y hy))
    exact ⟨out, w1, fun y hy => (w2 y hy).mono hsub⟩)
  rw [h3] at o1; obtain rfl := Except.ok.inj o1
  intro y hy
  obtain ⟨out, m1, m2⟩ := List.mem_flatten.1 hy
  obtain ⟨i, hi, rfl⟩ := List.getElem_of_mem m1
  have hl := o2.length_eq
  exact (List.forall₂_iff_get.1 o2).2 i (by omega) hi y m2

theorem inside_trans {sg : Prop} {d d1 : List F64} {y : F64} (hd : ∀ x ∈ d, x.isFinite = true → MidSized x)
    (hk : ∀ x ∈ d1, x.isFinite = true → MidSized x ∧ Inside sg d x) (h : Inside sg d1 y) : Inside sg d y := by
  obtain ⟨⟨a, a1, a2, a3⟩, ⟨b, b1, b2, b3⟩⟩ := h
  obtain ⟨-, ⟨a', a1', a2', a3'⟩, -⟩ := hk a a1 a2
  obtain ⟨-, -, ⟨b', b1', b2', b3'⟩⟩ := hk b b1 b2
  refine ⟨⟨a', a1', a2', ?_⟩, ⟨b', b1', b2', ?_⟩⟩
  · have na := isFinite_not_nan a2
    have na' := isFinite_not_nan a2'
    have hr := (hd a' a1' a2').inRange
    obtain ⟨i1, i2⟩ := single_idem a2' hr
    rcases a3 with a3 | ⟨s, a3⟩ <;> rcases a3' with a3' | ⟨s', a3'⟩
    · exact .inl (le_trans a3' a3)
    · exact .inr ⟨s', le_trans a3' a3⟩
    · exact .inr ⟨s, le_trans (toSingle_le na' na a3') a3⟩
    · refine .inr ⟨s, le_trans ?_ a3⟩
      rw [← i1]
      exact toSingle_le (isFinite_not_nan (toSingle_err a2' hr).1) na a3'
  · have nb := isFinite_not_nan b2
    have nb' := isFinite_not_nan b2'
    have hr := (hd b' b1' b2').inRange
    obtain ⟨i1, i2⟩ := single_idem b2' hr
    rcases b3 with b3 | ⟨s, b3⟩ <;> rcases b3' with b3' | ⟨s', b3'⟩
    · exact .inl (le_trans b3 b3')
    · exact .inr ⟨s', le_trans b3 b3'⟩
    · exact .inr ⟨s, le_trans b3 (toSingle_le nb nb' b3')⟩
    · refine .inr ⟨s, le_trans b3 ?_⟩
      rw [← i1]
      exact toSingle_le nb (isFinite_not_nan (toSingle_err b2' hr).1) b3'

/-! ### C121 -/

/-- C121: after any number of cycles, with any options but `noop`, every sample is NaN or finite and between two of the original finite samples (rounded to single
precision only if some cycle used FFT or Auto): repeating the lossy compression never drifts out of the original range. -/
theorem C121_range (E : Ext) (hE : E.Lawful) (p : Profile) (as : List CompArgs) (d d' : List F64) (h : Cycles E p as d d') (hv : ∀ a ∈ as, a.Valid)
    (hno : ∀ a ∈ as, a.compressor ≠ .noop) (hne : as ≠ []) (hp : FewEnough p d) (hm : ∀ x ∈ d, x.isFinite = true → MidSized x) :
    ∀ y ∈ d', y.isNaN = true ∨ (y.isFinite = true ∧ Inside (∃ a ∈ as, a.compressor = .fft ∨ a.compressor = .auto) d y) := by
  have main : ∀ (sg : Prop), (∀ a ∈ as, a.compressor = .fft ∨ a.compressor = .auto → sg) → ∀ y ∈ d', y.isNaN = true ∨ (y.isFinite = true ∧ Inside sg d y) := by
    intro sg hsg
    induction h with
    | done d => exact absurd rfl hne
    | @next a as d d1 d2 h1 h2 ih =>
      have ha := hv a (by simp)
      have hk := h1.kept hE ha (hno a (by simp)) (hsg a (by simp)) hp hm
      have hmid : ∀ x ∈ d1, x.isFinite = true → MidSized x ∧ Inside sg d x := by
        intro x hx hxf
        rcases hk x hx with hn | ⟨_, hx2, hx3⟩
        · rw [isFinite_not_nan hxf] at hn; cases hn
        · exact ⟨hx2, hx3⟩
      cases h2 with
      | done =>
        intro y hy
        rcases hk y hy with hn | ⟨hx1, _, hx3⟩
        · exact .inl hn
        · exact .inr ⟨hx1, hx3⟩
      | next g1 g2 =>
        intro y hy
        rcases ih (fun b hb => hv b (by simp [hb])) (fun b hb => hno b (by simp [hb])) (by simp) (h1.few hE ha hp) (fun x hx hxf => (hmid x hx hxf).1)
          (fun b hb => hsg b (by simp [hb])) y hy with hn | ⟨q1, q2⟩
        · exact .inl hn
        · exact .inr ⟨q1, inside_trans hm hmid q2⟩
  exact main _ fun a ha h => ⟨a, ha, h⟩

/-- C121: a cycle never yields more samples than there were finite ones, and the later cycles only drop NaN. -/
theorem C121_count (E : Ext) (hE : E.Lawful) (p : Profile) (as : List CompArgs) (d d' : List F64) (h : Cycles E p as d d') (hv : ∀ a ∈ as, a.Valid)
    (hne : as ≠ []) (hp : FewEnough p d) : d'.length ≤ (finiteSamples d).length := by
  induction h with
  | done d => exact absurd rfl hne
  | @next a as d d1 d2 h1 h2 ih =>
    have ha := hv a (by simp)
    have hl := h1.len hE ha hp
    cases h2 with
    | done => exact hl.le
    | next g1 g2 =>
      have := ih (fun b hb => hv b (by simp [hb])) (by simp) (h1.few hE ha hp)
      exact le_trans this (le_trans (List.length_filter_le _ _) hl.le)

/-- C121: the next cycle always succeeds, if its bytes fit in memory. -/
theorem C121_continues (E : Ext) (hE : E.Lawful) (p : Profile) (as : List CompArgs) (a : CompArgs) (d d' : List F64) (h : Cycles E p as d d')
    (hv : ∀ b ∈ as, b.Valid) (ha : a.Valid) (hp : FewEnough p d) :
    ∃ bs, compressData E p d' a = .ok bs ∧ (bs.length < 2 ^ 64 → ∃ d'', Cycles E p (as ++ [a]) d d'') := by
  induction h with
  | done d =>
    obtain ⟨bs, h1, h2⟩ := C54_end_to_end E hE p d a ha hp
    exact ⟨bs, h1, fun hl => by obtain ⟨out, o1, -⟩ := h2 hl; exact ⟨out, .next ⟨bs, h1, hl, o1⟩ (.done _)⟩⟩
  | @next b as d d1 d2 h1 h2 ih =>
    obtain ⟨bs, k1, k2⟩ := ih (fun c hc => hv c (by simp [hc])) (h1.few hE (hv b (by simp)) hp)
    exact ⟨bs, k1, fun hl => by obtain ⟨d'', hd⟩ := k2 hl; exact ⟨d'', .next h1 hd⟩⟩

theorem sameValues_trans {a b c : List F64} (h1 : SameValues a b) (h2 : SameValues b c) : SameValues a c :=
  ⟨h1.1.trans h2.1, fun i ha hc => by
    obtain ⟨v1, f1, -⟩ := h1.2 i ha (h1.1 ▸ ha)
    obtain ⟨v2, -, f2⟩ := h2.2 i (h1.1 ▸ ha) hc
    exact ⟨v1.trans v2, f1, f2⟩⟩

theorem finiteSamples_all {d : List F64} (h : AllFinite d) : finiteSamples d = d := List.filter_eq_self.2 h

/-- C121: any number of RLE cycles returns the finite samples of the original with their values. -/
theorem C121_rle (E : Ext) (hE : E.Lawful) (p : Profile) (as : List CompArgs) (d d' : List F64) (h : Cycles E p as d d') (hv : ∀ a ∈ as, a.Valid)
    (hc : ∀ a ∈ as, a.compressor = .rle) (hne : as ≠ []) (hp : FewEnough p d) (hm : ∀ x ∈ d, x.isFinite = true → InRange x) :
    SameValues d' (finiteSamples d) := by
  induction h with
  | done d => exact absurd rfl hne
  | @next a as d d1 d2 h1 h2 ih =>
    have ha := hv a (by simp)
    have hsame : SameValues d1 (finiteSamples d) := by
      obtain ⟨bs, w1, w2, w3⟩ := h1
      obtain ⟨bs', k1, k2⟩ := C54_rle_equal E hE p d a ha hp (hc a (by simp)) hm
      rw [w1] at k1; obtain rfl := Except.ok.inj k1
      obtain ⟨out, o1, o2⟩ := k2 w2
      rw [w3] at o1; obtain rfl := Except.ok.inj o1
      exact o2
    cases h2 with
    | done => exact hsame
    | next g1 g2 =>
      have hfin : AllFinite d1 := by
        intro x hx
        obtain ⟨i, hi, rfl⟩ := List.getElem_of_mem hx
        exact (hsame.2 i hi (hsame.1 ▸ hi)).2.1
      have hr : ∀ x ∈ d1, x.isFinite = true → InRange x := by
        intro x hx _
        obtain ⟨i, hi, rfl⟩ := List.getElem_of_mem hx
        have hi' : i < (finiteSamples d).length := hsame.1 ▸ hi
        have := hsame.2 i hi hi'
        have hmem := List.mem_filter.1 (List.getElem_mem hi')
        have := hm _ hmem.1 hmem.2
        unfold InRange
        rw [(hsame.2 i hi hi').1]
        exact this
      have := ih (fun b hb => hv b (by simp [hb])) (fun b hb => hc b (by simp [hb])) (by simp) (h1.few hE ha hp) hr
      rw [finiteSamples_all hfin] at this
      exact sameValues_trans this hsame

theorem Cycle.noop {E : Ext} (hE : E.Lawful) {p : Profile} {a : CompArgs} (ha : a.Valid) (hc : a.compressor = .noop) {d d' : List F64} (hp : FewEnough p d)
    (h : Cycle E p a d d') : List.Forall₂ (fun (o x : F64) => o.isFinite = true ∧ o.val = (noopValue x.val : ℚ)) d' (finiteSamples d) := by
  obtain ⟨bs, w1, w2, w3⟩ := h
  obtain ⟨bs', k1, k2⟩ := C54_noop_nearest E hE p d a ha hp hc
  rw [w1] at k1; obtain rfl := Except.ok.inj k1
  obtain ⟨out, o1, o2⟩ := k2 w2
  rw [w3] at o1; obtain rfl := Except.ok.inj o1
  exact o2

theorem noopValue_idem (q : ℚ) : noopValue (noopValue q) = noopValue q :=
  C13_noop_integers _ (by unfold noopValue; constructor <;> omega)

/-- C121: any number of `noop` cycles does what one does: each finite sample becomes its nearest integer, once. -/
theorem C121_noop (E : Ext) (hE : E.Lawful) (p : Profile) (as : List CompArgs) (d d' : List F64) (h : Cycles E p as d d') (hv : ∀ a ∈ as, a.Valid)
    (hc : ∀ a ∈ as, a.compressor = .noop) (hne : as ≠ []) (hp : FewEnough p d) :
    List.Forall₂ (fun (o x : F64) => o.isFinite = true ∧ o.val = (noopValue x.val : ℚ)) d' (finiteSamples d) := by
  induction h with
  | done d => exact absurd rfl hne
  | @next a as d d1 d2 h1 h2 ih =>
    have ha := hv a (by simp)
    have h0 := h1.noop hE ha (hc a (by simp)) hp
    cases h2 with
    | done => exact h0
    | next g1 g2 =>
      have := ih (fun b hb => hv b (by simp [hb])) (fun b hb => hc b (by simp [hb])) (by simp) (h1.few hE ha hp)
      obtain ⟨l0, g0⟩ := List.forall₂_iff_get.1 h0
      have hfin : AllFinite d1 := by
        intro x hx
        obtain ⟨i, hi, rfl⟩ := List.getElem_of_mem hx
        exact (g0 i hi (l0 ▸ hi)).1
      rw [finiteSamples_all hfin] at this
      obtain ⟨l1, g1⟩ := List.forall₂_iff_get.1 this
      refine List.forall₂_iff_get.2 ⟨l1.trans l0, fun i i1 i2 => ⟨(g1 i i1 (by omega)).1, ?_⟩⟩
      rw [(g1 i i1 (by omega)).2, (g0 i (by omega) i2).2, noopValue_idem]

/-! ### Concrete cycles, and what the range statement cannot say -/

theorem cycle_of {E : Ext} {p : Profile} {a : CompArgs} {d d' : List F64}
    (h : okAnd (compressData E p d a) (fun bs => decide (bs.length < 2 ^ 64) && okAnd (decompressData E bs) (fun o => decide (o = d'))) = true) : Cycle E p a d d' := by
  obtain ⟨bs, h1, h2⟩ := okAnd_iff.1 h
  rw [Bool.and_eq_true, decide_eq_true_eq] at h2
  obtain ⟨o, h3, h4⟩ := okAnd_iff.1 h2.2
  rw [decide_eq_true_eq] at h4
  exact ⟨bs, h1, h2.1, by rw [h3, h4]⟩

def cycleDemo : List F64 := [F64.lit 5, FP.nan, F64.lit 6, F64.lit (-7)]

/-- Three cycles with three compressors: the NaN is dropped by the first, the constant compressor keeps the smallest sample, which Auto then keeps. -/
theorem cycleDemo_runs : Cycles Ext.dummy .debug [{ compressor := .idw, error := 5, level := 0 }, { compressor := .constant, error := 3, level := 2 },
    { compressor := .auto, error := 3, level := 0 }] cycleDemo [F64.lit (-7), F64.lit (-7), F64.lit (-7)] :=
  .next (d₁ := [F64.lit 5, F64.lit 6, F64.lit (-7)]) (cycle_of (by decide +kernel))
    (.next (d₁ := [F64.lit (-7), F64.lit (-7), F64.lit (-7)]) (cycle_of (by decide +kernel)) (.next (cycle_of (by decide +kernel)) (.done _)))

theorem mid_of_int {x : F64} {n : Int} (h : x.val = n) (hn : n.natAbs ≤ 2 ^ 62) : MidSized x := by
  rcases inRange_of_int h (by omega) with h0 | ⟨h1, -⟩
  · exact .inl h0
  · refine .inr ⟨h1, ?_⟩
    rw [h, ← Int.cast_abs]
    have : |n| ≤ 2 ^ 62 := by rw [Int.abs_eq_natAbs]; exact_mod_cast hn
    exact_mod_cast this

/-- The samples of that run meet the hypotheses. -/
example : FewEnough .debug cycleDemo ∧ ∀ x ∈ cycleDemo, x.isFinite = true → MidSized x := by
  refine ⟨fun _ => by decide, fun x hx hf => ?_⟩
  simp only [cycleDemo, List.mem_cons, List.not_mem_nil, or_false] at hx
  rcases hx with rfl | rfl | rfl | rfl
  · exact mid_of_int (lit_val (by decide)).2 (by decide)
  · exact absurd hf (by decide)
  · exact mid_of_int (lit_val (by decide)).2 (by decide)
  · exact mid_of_int (lit_val (by decide)).2 (by decide)

example : Cycles Ext.dummy .debug (List.replicate 3 { compressor := .rle, error := 3, level := 0 }) cycleDemo [F64.lit 5, F64.lit 6, F64.lit (-7)] :=
  .next (d₁ := [F64.lit 5, F64.lit 6, F64.lit (-7)]) (cycle_of (by decide +kernel))
    (.next (d₁ := [F64.lit 5, F64.lit 6, F64.lit (-7)]) (cycle_of (by decide +kernel)) (.next (cycle_of (by decide +kernel)) (.done _)))

/-- Why single precision appears in `Inside`: one FFT cycle takes the sample 16777217 to 16777216, below every sample there was. -/
theorem C121_refuted_single : ∃ a : CompArgs, a.Valid ∧ a.compressor = .fft ∧ ∃ x y : F64, Cycle Ext.dummy .debug a [x] [y] ∧ y.val < x.val := by
  refine ⟨{ compressor := .fft, error := 5, level := 0 }, ⟨by decide, by decide⟩, rfl, F64.lit 16777217, F64.lit 16777216, cycle_of (by decide +kernel), ?_⟩
  rw [(lit_val (by decide)).2, (lit_val (by decide)).2]
  norm_num

/-- Why `noop` is excluded from the range statement: one cycle takes three quarters to 1. -/
theorem C121_refuted_noop : ∃ a : CompArgs, a.Valid ∧ a.compressor = .noop ∧ ∃ x y : F64, Cycle Ext.dummy .debug a [x] [y] ∧ x.val < y.val ∧ (toSingle x).val < y.val := by
  refine ⟨{ compressor := .noop, error := 5, level := 0 }, ⟨by decide, by decide⟩, rfl, (F64.lit 3).div (F64.lit 4), F64.lit 1, cycle_of (by decide +kernel), ?_⟩
  exact ⟨(val_lt_iff (by decide)).2 (by decide +kernel), (val_lt_iff (by decide)).2 (by decide +kernel)⟩

/-- Integers up to `2^24` are single-precision numbers. -/
theorem int_single {n : ℤ} (hn : n.natAbs ≤ 2 ^ 24) : ∃ A : F64, A.isNaN = false ∧ A.val = n ∧ toSingle A = A := by
  have h := FP.ofInt_exact (mb := 23) (eb := 8) hn (by
    rw [FP.magVal_infMag 23 (by decide)]
    calc n.natAbs * 2 ^ FP.qexp 23 8 ≤ 2 ^ 24 * 2 ^ FP.qexp 23 8 := Nat.mul_le_mul_right _ hn
      _ < _ := by rw [← pow_add, ← pow_add]; exact Nat.pow_lt_pow_right (by decide) (by decide))
  obtain ⟨w1, w2⟩ := widen_val h.2
  refine ⟨_, isFinite_not_nan w1, by rw [w2]; exact (val_eq_int (by decide)).2 h.1, ?_⟩
  unfold toSingle
  rw [cvt_widen h.2]

theorem roundHalfAway_bounds {q : ℚ} {m M : ℤ} (h1 : (m : ℚ) ≤ q) (h2 : q ≤ M) : m ≤ roundHalfAway q ∧ roundHalfAway q ≤ M := by
  have h := abs_le.1 (roundHalfAway_near q)
  constructor
  · have : ((m : ℤ) : ℚ) - 1 < roundHalfAway q := by linarith [h.1]
    have : m - 1 < roundHalfAway q := by exact_mod_cast this
    omega
  · have : (roundHalfAway q : ℚ) < ((M : ℤ) : ℚ) + 1 := by linarith [h.2]
    have : roundHalfAway q < M + 1 := by exact_mod_cast this
    omega

theorem noopValue_bounds {q : ℚ} {m M : ℤ} (hM : M.natAbs ≤ 2 ^ 24) (h1 : (m : ℚ) ≤ q) (h2 : q ≤ M) : m ≤ noopValue q ∧ noopValue q ≤ M := by
  have h := roundHalfAway_bounds h1 h2
  unfold noopValue
  omega

/-- C121, all seven compressors: if the finite samples lie between two integers `m` and `M` of magnitude at most `2^24` (and are 0 or at least `2^-64`), then so does every
finite sample after any number of cycles with any options; the others are NaN. -/
theorem C121_hull (E : Ext) (hE : E.Lawful) (p : Profile) (as : List CompArgs) (d d' : List F64) (h : Cycles E p as d d') (hv : ∀ a ∈ as, a.Valid)
    (hne : as ≠ []) (hp : FewEnough p d) (m M : ℤ) (hm : m.natAbs ≤ 2 ^ 24) (hM : M.natAbs ≤ 2 ^ 24)
    (hd : ∀ x ∈ d, x.isFinite = true → MidSized x ∧ (m : ℚ) ≤ x.val ∧ x.val ≤ M) :
    ∀ y ∈ d', y.isNaN = true ∨ (y.isFinite = true ∧ (m : ℚ) ≤ y.val ∧ y.val ≤ M) := by
  obtain ⟨A, a1, a2, a3⟩ := int_single hm
  obtain ⟨B, b1, b2, b3⟩ := int_single hM
  induction h with
  | done d => exact absurd rfl hne
  | @next a as d d1 d2 h1 h2 ih =>
    have ha := hv a (by simp)
    have step : ∀ y ∈ d1, y.isNaN = true ∨ (y.isFinite = true ∧ MidSized y ∧ (m : ℚ) ≤ y.val ∧ y.val ≤ M) := by
      intro y hy
      by_cases hno : a.compressor = .noop
      · obtain ⟨l0, g0⟩ := List.forall₂_iff_get.1 (h1.noop hE ha hno hp)
        obtain ⟨i, hi, rfl⟩ := List.getElem_of_mem hy
        obtain ⟨f1, f2⟩ := g0 i hi (l0 ▸ hi)
        have hmem := List.mem_filter.1 (List.getElem_mem (l := finiteSamples d) (l0 ▸ hi))
        obtain ⟨-, r1, r2⟩ := hd _ hmem.1 hmem.2
        obtain ⟨k1, k2⟩ := noopValue_bounds hM r1 r2
        refine .inr ⟨f1, mid_of_int (n := noopValue ((finiteSamples d)[i]'(l0 ▸ hi)).val) f2 (by omega), ?_, ?_⟩
        · exact f2 ▸ (by exact_mod_cast k1)
        · exact f2 ▸ (by exact_mod_cast k2)
      · rcases h1.kept hE ha hno (sg := True) (fun _ => trivial) hp (fun x hx hf => (hd x hx hf).1) y hy with hn | ⟨hf, hmid, ⟨u, u1, u2, u3⟩, ⟨v, v1, v2, v3⟩⟩
        · exact .inl hn
        · refine .inr ⟨hf, hmid, ?_, ?_⟩
          · obtain ⟨-, r1, -⟩ := hd u u1 u2
            rcases u3 with u3 | ⟨-, u3⟩
            · exact le_trans r1 u3
            · refine le_trans ?_ u3
              rw [← a2, ← a3]
              exact toSingle_le a1 (isFinite_not_nan u2) (by rw [a2]; exact r1)
          · obtain ⟨-, -, r2⟩ := hd v v1 v2
            rcases v3 with v3 | ⟨-, v3⟩
            · exact le_trans v3 r2
            · refine le_trans v3 ?_
              rw [← b2, ← b3]
              exact toSingle_le (isFinite_not_nan v2) b1 (by rw [b2]; exact r2)
    cases h2 with
    | done =>
      intro y hy
      rcases step y hy with hn | ⟨q1, _, q2⟩
      · exact .inl hn
      · exact .inr ⟨q1, q2⟩
    | next g1 g2 =>
      refine ih (fun b hb => hv b (by simp [hb])) (by simp) (h1.few hE ha hp) fun x hx hf => ?_
      rcases step x hx with hn | ⟨_, q⟩
      · rw [isFinite_not_nan hf] at hn; cases hn
      · exact q

/-- The three cycles above meet its hypotheses, with -7 and 6. -/
example : ∀ y ∈ [F64.lit (-7), F64.lit (-7), F64.lit (-7)], y.isNaN = true ∨ (y.isFinite = true ∧ ((-7 : ℤ) : ℚ) ≤ y.val ∧ y.val ≤ ((6 : ℤ) : ℚ)) :=
  C121_hull Ext.dummy Ext.dummy_lawful .debug _ _ _ cycleDemo_runs (by
      intro a ha
      simp only [List.mem_cons, List.not_mem_nil, or_false] at ha
      rcases ha with rfl | rfl | rfl <;> exact ⟨by decide, by decide⟩) (by simp) (fun _ => by decide) (-7) 6 (by decide) (by decide) (fun x hx hf => by
    simp only [cycleDemo, List.mem_cons, List.not_mem_nil, or_false] at hx
    rcases hx with rfl | rfl | rfl | rfl
    · exact ⟨mid_of_int (lit_val (by decide)).2 (by decide), by rw [(lit_val (by decide)).2]; norm_num, by rw [(lit_val (by decide)).2]; norm_num⟩
    · exact absurd hf (by decide)
    · exact ⟨mid_of_int (lit_val (by decide)).2 (by decide), by rw [(lit_val (by decide)).2]; norm_num, by rw [(lit_val (by decide)).2]⟩
    · exact ⟨mid_of_int (lit_val (by decide)).2 (by decide), by rw [(lit_val (by decide)).2], by rw [(lit_val (by decide)).2]; norm_num⟩)

/-- A run with Noop: 0.75 stays between the integers 0 and 1. -/
example : Cycles Ext.dummy .debug [{ compressor := .fft, error := 5, level := 0 }, { compressor := .noop, error := 3, level := 2 }] [(F64.lit 3).div (F64.lit 4)] [F64.lit 1] :=
  .next (d₁ := [(F64.lit 3).div (F64.lit 4)]) (cycle_of (by decide +kernel)) (.next (cycle_of (by decide +kernel)) (.done _))

end Atsc
