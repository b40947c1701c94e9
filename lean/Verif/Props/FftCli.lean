import Verif.Props.Default
import Verif.Props.FftReport
/- C58 for FFT, on one chunk and at the command line. -/
namespace Atsc
open FP

/-- What uncompressing promises for one chunk compressed with `--compressor fft` at `pct` percent:
the chunk, when all its samples are one number in single precision, as that number repeated;
or, for a chunk without zeros, finite samples whose mean absolute percentage error is at most `pct` percent plus 0.0012, times the ratio of the lengths of the chunk
extended for the transform and of the chunk (1 below 128 samples, never above `32/27`, `C89_factor`);
or nothing, in two cases: the error the library reports for the frame is not a number (for a chunk below 128 samples this means that it has a zero or that the
transform gave NaN); or the frame stores as many frequencies as the last of the 23 rounds may. -/
def FftMeets (E : Ext) (e : F64) (pct : Nat) (c out : List F64) : Prop :=
  ∃ r, Compressor.fft.boundedResults E c e = .ok r ∧ Compressor.fft.decompress E c.length r.data = .ok out ∧ out.length = c.length ∧
    ((∃ v : F32, (∀ x ∈ c, (FP.cvt x : F32).feq v = true) ∧ out = List.replicate c.length (FP.cvt v)) ∨
     ((∀ x ∈ c, x.val ≠ 0) ∧ AllFinite out ∧
       ∃ N, FftLength c.length N ∧ exactMape c out ≤ (N : ℚ) / c.length * ((pct : ℚ) / 100 + 12 / 10000)) ∨
     (r.error.isNaN = true ∧ (c.length < 128 → (∀ x ∈ c, x.val ≠ 0) → ∃ v ∈ out, v.isNaN = true)) ∨
     ∃ g pre fs, PaddedChunk c g pre ∧ DecodesTo r.data fs ∧ UsedUp (E.spectrum g) (lastRoundCount c.length) fs)

theorem fft_chunk_meets (E : Ext) (hE : E.Lawful) (c : List F64) (hne : c ≠ []) (hlen : c.length ≤ 131072)
    (hf : AllFinite c) (hr : ∀ x ∈ c, InRange x) (pct : Nat) (hp : pct ≤ 50) (e : F64)
    (he : e = (FP.cvt ((FP.ofInt (pct : Int) : F32).div (FP.ofInt 100)) : F64)) :
    ∃ bs out, Compressor.fft.compressBounded E c e = .ok bs ∧
      Compressor.fft.decompress E c.length bs = .ok out ∧ FftMeets E e pct c out := by
  obtain ⟨b1, b2, b3⟩ := bound_cvt hp
  rw [← he] at b1 b2 b3
  clear he
  have hpq : (pct : ℚ) ≤ 50 := by exact_mod_cast hp
  have be1 : e.val ≤ 51 / 100 := by norm_num at b3; linarith
  have hn : ∀ y ∈ c, y.isNaN = false := fun y hy => isFinite_not_nan (hf y hy)
  have hl62 : c.length < 2 ^ 62 := lt_of_le_of_lt hlen (by norm_num)
  have hn1 : 1 ≤ c.length := List.length_pos_of_ne_nil hne
  obtain ⟨r, h1, h2, h3, -, -⟩ := C24_exact E hE c hne hl62 hn e
  by_cases hos : OneSingle c
  · obtain ⟨-, v, v1, v2⟩ := h3 hos
    exact ⟨r.data, _, h2, v2, r, h1, v2, List.length_replicate, Or.inl ⟨v, v1, rfl⟩⟩
  · have hab : ∃ a ∈ c, ∃ b ∈ c, (FP.cvt a : F32).lt (FP.cvt b : F32) = true := by
      by_contra hc
      apply hos
      intro a ha b hb
      rw [Bool.eq_false_iff]
      exact fun h => hc ⟨a, ha, b, hb, h⟩
    obtain ⟨a, ha, b, hb, hab⟩ := hab
    obtain ⟨r', g, pre, full, q1, q2, q3, q4, q5⟩ := C58_fft_bound_partial E hE c hl62 hn a b ha hb hab e b1 b2 (by linarith)
    rw [h1] at q1; obtain rfl := Except.ok.inj q1
    have hw : ((full.drop pre).take c.length).length = c.length := by
      have l1 := calc_len q3
      have l2 := congrArg List.length ((show (g.drop pre).take c.length = c by obtain ⟨rfl, rfl⟩ := q2.unique (C22_padding c hne); exact gibbsData_window hn1))
      rw [List.length_take, List.length_drop] at l2 ⊢
      rw [← l1]; exact l2
    refine ⟨r.data, _, h2, q4, r, h1, q4, hw, ?_⟩
    rcases q5 with q5 | ⟨q5, q6⟩ | ⟨fs, q5, q6⟩
    · refine Or.inr (Or.inr (Or.inl ⟨q5, fun hsm hnz => ?_⟩))
      by_contra hno
      obtain ⟨st, hst⟩ := stats_ok hne
      obtain ⟨r', g', pre', full', w1, w2, w3, w4, w5, w6, w7⟩ := fft_window_range E hE c hl62 hn hne st hst (fft_nonconst hn hst ha hb hab) e b1 (by
        rw [abs_of_nonneg b2]; linarith)
      rw [h1] at w1; obtain rfl := Except.ok.inj w1
      rw [q4] at w7
      have w7 := Except.ok.inj w7
      rcases w2 with ⟨-, rfl, rfl⟩ | ⟨h128, -⟩
      swap
      · omega
      have hfull : (full'.drop 0).take g'.length = full' := by rw [List.drop_zero, ← w4, List.take_length]
      rw [hfull] at w7
      rw [w7] at hno
      have hff : AllFinite full' := fun v hv => (within_single_finite hf hr w5 v hv (by
        rw [Bool.eq_false_iff]; exact fun h => hno ⟨v, hv, h⟩)).1
      obtain ⟨err, k1, k2⟩ := C31_mape_nan_iff g' full' w4.symm hne (le_trans hlen (by norm_num)) hf hff
      rw [show err = r.error from Except.ok.inj ((show calculateError g' full' = .ok err from k1).symm.trans w6)] at k2
      obtain ⟨i, i1, i2, i3, -⟩ := k2.1 q5
      exact hnz _ (List.getElem_mem i1) i3
    · right; left
      have hen : r.error.isNaN = false := isFinite_not_nan q5
      have hsg : 0 ≤ r.error.val := by
        rcases C29_never_negative .mape g full r.error q3 with h | h
        · rw [hen] at h; exact absurd h (by decide)
        · exact val_nonneg_sign h.1
      have hxy : a.val ≠ b.val := by
        intro hv
        have hs := (val_eq_iff (by decide)).1 hv
        have l1 := (le_iff.1 (cvt_mono (mb' := 23) (eb' := 8) infMag64_pos (le_iff.2 ⟨hn b hb, hn a ha, by omega⟩))).2.2
        have l2 := (lt_iff.1 hab).2.2
        omega
      obtain ⟨out, o1, o2, o3, o4, N, o5, o6⟩ := fft_kept_upto E hE c hlen hf hr a b ha hb hxy e b1 b2 (by linarith) r h1 r.error q5 hsg (by linarith)
        (le_iff.2 ⟨hen, hen, le_refl _⟩)
      rw [q4] at o1; obtain rfl := Except.ok.inj o1
      refine ⟨o3, o4, N, o5, le_trans o6 ?_⟩
      have hpos : (0 : ℚ) < c.length := by exact_mod_cast hn1
      have i1 : (c.length : ℚ) ≤ N := by exact_mod_cast o5.le
      have hρ : 1 ≤ (N : ℚ) / c.length := (one_le_div hpos).2 i1
      generalize (N : ℚ) / c.length = ρ at *
      have hk : r.error.val + 1 / 2 ^ 29 ≤ (pct : ℚ) / 100 + 119 / 100000 := by norm_num at b3 ⊢; linarith
      generalize r.error.val + 1 / 2 ^ 29 = u at *
      generalize (pct : ℚ) / 100 = w at *
      have := mul_le_mul_of_nonneg_left hk (show 0 ≤ ρ by linarith)
      norm_num
      nlinarith
    · exact Or.inr (Or.inr (Or.inr ⟨g, pre, fs, q2, q5, q6⟩))

/-- C58 at the command line, FFT (the part that holds): `--compressor fft` with an error of `a.error` percent. Whatever the (finite, in-range) samples, uncompressing gives back the finite
samples, chunk by chunk as `FftMeets` says. Missing from the full property: zeros and NaN (`C58_refuted_fft_zero`), used-up rounds (`C58_refuted_fft_rounds`), the ratio of
the lengths, and samples outside `InRange`. -/
theorem C58_cli_fft_partial (E : Ext) (hE : E.Lawful) (p : Profile) (data : List F64) (a : CompArgs) (ha : a.Valid) (hp : FewEnough p data)
    (hc : a.compressor = .fft) (hr : ∀ x ∈ data, x.isFinite = true → InRange x) :
    ∃ bs e, compressData E p data a = .ok bs ∧ e.isFinite = true ∧ |e.val - (a.error : ℚ) / 100| ≤ 1 / 2 ^ 25 ∧
      (bs.length < 2 ^ 64 → ∃ chunks outs, chunks.flatten = finiteSamples data ∧ decompressData E bs = .ok outs.flatten ∧
        List.Forall₂ (FftMeets E e a.error) chunks outs) := by
  obtain ⟨ex, s, h1, h2, h3, h4, h5⟩ := pipeline E hE p data a ha hp
  obtain ⟨bf, bv⟩ := bound_value ha.1
  obtain ⟨wf, wv⟩ := widen_val bf
  rw [← wv] at bv
  refine ⟨_, _, h2, wf, bv, fun hl => ?_⟩
  rw [decompressData_ok h1 (fun x hx => (h4 x hx).2.2.1) hl, ← h3]
  obtain ⟨outs, o1, o2⟩ := concat_outs (E := E) (p := p) (a := a) (FftMeets E (FP.cvt ((FP.ofInt (a.error : Int) : F32).div (FP.ofInt 100))) a.error) ex (fun x hx => by
    obtain ⟨q1, q2, q3, q4⟩ := h4 x hx
    have hmem : ∀ y ∈ x.2, y ∈ data := by
      intro y hy
      have : y ∈ (ex.map Prod.snd).flatten := List.mem_flatten.2 ⟨x.2, List.mem_map.2 ⟨x, hx, rfl⟩, hy⟩
      rw [h3] at this
      exact (List.mem_filter.1 this).1
    obtain ⟨bs, out, m1, m2, m3⟩ := fft_chunk_meets E hE x.2 (List.ne_nil_of_length_pos q2) q3 q4 (fun y hy => hr y (hmem y hy) (q4 y hy)) a.error ha.1 _ rfl
    rw [op_is_call a x q1, hc]
    refine ⟨out, ?_, m3⟩
    have hf : (CompressorType.fft.call x.2 a.bound a.level).frame E = .ok { frameSize := 0, sampleCount := x.2.length, compressor := .fft, data := bs } := by
      have hb : Compressor.fft.compressBounded E x.2 (FP.cvt a.bound) = .ok bs := m1
      simp only [CompressorType.call, ChunkOp.frame, Frame.compressBounded, Frame.new, Option.getD_some] at hb ⊢
      rw [hb]; rfl
    rw [alone_eq hf]
    exact m2)
  exact ⟨_, outs, rfl, o1, o2⟩

/-- C58_cli_fft_partial applies: 1, 2 with the transform that returns zeros (the rounds are used up), and a chunk of one value. -/
example : ∃ bs e, compressData Ext.zeros .debug oneTwo { compressor := .fft, error := 5, level := 0 } = .ok bs ∧ e.isFinite = true ∧ |e.val - ((5 : Nat) : ℚ) / 100| ≤ 1 / 2 ^ 25 ∧
    (bs.length < 2 ^ 64 → ∃ chunks outs, chunks.flatten = finiteSamples oneTwo ∧ decompressData Ext.zeros bs = .ok outs.flatten ∧
      List.Forall₂ (FftMeets Ext.zeros e 5) chunks outs) :=
  C58_cli_fft_partial Ext.zeros Ext.zeros_lawful .debug oneTwo _ ⟨by decide, by decide⟩ (fun _ => by decide +kernel) rfl
    (fun x hx _ => by
      simp only [oneTwo, List.mem_cons, List.not_mem_nil, or_false] at hx
      rcases hx with rfl | rfl <;> exact inRange_of_int (lit_val (by decide)).2 (by decide))

end Atsc
