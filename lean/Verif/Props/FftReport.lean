import Verif.Props.Fft
/- C24, exactly: what the bounded FFT compressor reports for every chunk and every bound, also the useless ones. -/
namespace Atsc
open FP

/-- Every sample of the chunk is the same number once rounded to single precision. -/
def OneSingle (data : List F64) : Prop := ∀ a ∈ data, ∀ b ∈ data, (FP.cvt a : F32).lt (FP.cvt b : F32) = false

/-- The search is entered: `(bound * 1000.0) as i32` is less than `((bound + 1.0) * 1000.0) as i32` (both casts truncate and saturate). -/
def Searches (e : F64) : Prop := F64.toI32 (e.mul (F64.lit 1000)) < F64.toI32 ((e.add (F64.lit 1)).mul (F64.lit 1000))

theorem oneSingle_iff {data : List F64} (hne : data ≠ []) (hn : ∀ y ∈ data, y.isNaN = false) {st : DataStats} (hst : DataStats.new data = .ok st) :
    OneSingle data ↔ (Fft.start st).maxValue.feq (Fft.start st).minValue = true := by
  constructor
  · intro h
    obtain ⟨hmin, hmax, hr⟩ := stats_range hne hn hst
    have h1 := h _ hmin _ hmax
    have h2 := le_iff.1 (cvt_mono (mb' := 23) (eb' := 8) infMag64_pos (hr _ hmin).2)
    refine feq_iff.2 ⟨h2.2.1, h2.1, ?_⟩
    show (FP.cvt st.max : F32).scaled = (FP.cvt st.min : F32).scaled
    have h3 : ¬ (FP.cvt st.min : F32).scaled < (FP.cvt st.max : F32).scaled := fun hlt => by
      rw [lt_iff.2 ⟨h2.1, h2.2.1, hlt⟩] at h1; cases h1
    omega
  · intro h a ha b hb
    by_contra hab
    rw [Bool.not_eq_false] at hab
    rw [fft_nonconst hn hst ha hb hab] at h
    cases h

/-- **C24, exactly.** For every chunk without NaN and every bound - also NaN, infinite or absurd ones - the bounded FFT compressor gives a frame, and
the error it reports is:
0 if all samples are one single-precision number, and then the frame reads back as that number repeated;
else, if the bound is so large that the search is not entered, the bound plus one, and then the frame stores no frequency at all;
else the error, over the extended chunk, of the series rebuilt from the stored frequencies, of which the frame reads back as the window where
the chunk sits. -/
theorem C24_exact (E : Ext) (hE : E.Lawful) (data : List F64) (hne : data ≠ []) (hlen : data.length < 2 ^ 62) (hn : ∀ y ∈ data, y.isNaN = false) (e : F64) :
    ∃ r, Compressor.fft.boundedResults E data e = .ok r ∧ Compressor.fft.compressBounded E data e = .ok r.data ∧
      (OneSingle data → r.error = FP.zero ∧ ∃ v : F32, (∀ x ∈ data, (FP.cvt x : F32).feq v = true) ∧
        Compressor.fft.decompress E data.length r.data = .ok (List.replicate data.length (FP.cvt v))) ∧
      (¬ OneSingle data → ¬ Searches e → r.error = e.add (F64.lit 1) ∧ DecodesTo r.data []) ∧
      (¬ OneSingle data → Searches e → FrameOf E data r) := by
  have h1 : 1 ≤ data.length := List.length_pos_of_ne_nil hne
  obtain ⟨st, hst⟩ := stats_ok hne
  have hiff := oneSingle_iff hne hn hst
  obtain ⟨c, r, h2, h3, h4, h5⟩ := fft_bounded_cases E hE data hne e st hst
  refine ⟨r, h2, h3, ?_⟩
  rcases h5 with ⟨h, rfl, h6⟩ | ⟨hc, h, rfl, h6⟩ | ⟨hc, h, s, ⟨⟨fs, h6, h7⟩, out, h8, h9⟩, _, _, rfl, h10⟩
  · refine ⟨fun _ => ⟨h6, (Fft.start st).maxValue, fun x hx => ?_, ?_⟩, fun hno => absurd (hiff.2 h) hno, fun hno => absurd (hiff.2 h) hno⟩
    · obtain ⟨hmin, hmax, hr⟩ := stats_range hne hn hst
      have g1 := le_iff.1 (cvt_mono (mb' := 23) (eb' := 8) infMag64_pos (hr x hx).1)
      have g2 := le_iff.1 (cvt_mono (mb' := 23) (eb' := 8) infMag64_pos (hr x hx).2)
      refine feq_iff.2 ⟨g2.1, g2.2.1, ?_⟩
      have g3 := (feq_iff.1 h).2.2
      have e1 : (Fft.start st).maxValue = FP.cvt st.max := rfl
      have e2 : (Fft.start st).minValue = FP.cvt st.min := rfl
      rw [e1, e2] at g3
      rw [e1]
      omega
    · rw [h4]
      simp only [Compressor.decompress, fftToData]
      rw [fft_unwrap _ (fftOk_nil st), ok_bind]
      unfold Fft.toData
      rw [if_pos (by exact h)]
  · have hno : ¬ OneSingle data := fun ho => by rw [hiff.1 ho] at hc; cases hc
    refine ⟨fun ho => absurd ho hno, fun _ _ => ⟨h6, ?_⟩, fun _ hs => absurd hs h⟩
    exact ⟨_, by rw [h4]; exact fft_unwrap _ (fftOk_nil st), rfl⟩
  · have hno : ¬ OneSingle data := fun ho => by rw [hiff.1 ho] at hc; cases hc
    refine ⟨fun ho => absurd ho hno, fun _ hs => absurd h hs, fun _ _ => ?_⟩
    have hgl := gibbsData_length h1
    have hge := paddedLen_ge data.length
    have hlt := paddedLen_lt h1 hlen
    have hhl := fftHalf_length (E := E) hE (data := gibbsData data) (by omega)
    have hb3 : 3 ≤ baselinePoints data.length := by unfold baselinePoints; split_ifs <;> omega
    obtain ⟨k1, _⟩ := fft_frame_freqs hE (by omega) h6 (c0 := Fft.start st) (by omega)
    have hpos := round_pos_lt hE hne (by omega) h6
    rw [h7] at h8 h4
    set c : Fft := { Fft.start st with frequencies := fs } with hcdef
    obtain ⟨m, hm1, hm2⟩ := getMirrored_ok c (gibbsData data).length hpos
    have hout : out = (E.fftInv m).map fun f => c.round (f.re.div (FP.ofInt (gibbsData data).length)) 5 := by
      unfold Fft.reconstruct at h8
      rw [hm1, ok_bind] at h8
      exact (Except.ok.inj h8).symm
    refine ⟨⟨gibbsData data, padBefore data.length, out, m, _, C22_padding data hne, gibbsData_window h1, hm2, hout, ?_, ?_, ?_⟩⟩
    · rw [hout, List.length_map, hE.inv_len, hm2]
    · rw [h10]; exact h9
    · rw [h4]
      simp only [Compressor.decompress, fftToData]
      rw [fft_unwrap c k1, ok_bind]
      have : ({ c with error := none } : Fft) = c := rfl
      rw [this, toData_window E hE c _ (by exact hc), ← hgl, h8, ok_bind]

theorem big_bound : (F64.lit 2147484).sign = false ∧ (0 : Int) < (F64.lit 2147484).scaled := by decide +kernel
theorem big_bound_milli : (2 ^ 31 : Int) ≤ ((F64.lit 2147484).mul (F64.lit 1000)).truncInt ∧ ((F64.lit 2147484).mul (F64.lit 1000)).sign = false := by
  decide +kernel
theorem thousand_sign : (F64.lit 1000).sign = false := by decide +kernel

theorem searches_iff (e : F64) : Searches e ↔ milli e < milli (e.add (F64.lit 1)) := Iff.rfl

theorem milli_nan {x : F64} (h : x.isNaN = true) : milli x = 0 := by
  have h1 : (x.mul (F64.lit 1000)).isNaN = true := by unfold FP.mul; rw [h]; rfl
  unfold milli F64.toI32 FP.toInt
  rw [h1, if_pos rfl]

theorem milli_le (x : F64) : milli x ≤ 2 ^ 31 - 1 := by
  unfold milli F64.toI32
  exact (toInt_bounds _ (by norm_num) (by norm_num) (by norm_num)).2

theorem milli_big {e : F64} (h : (F64.lit 2147484).le e = true) : milli e = 2 ^ 31 - 1 := by
  obtain ⟨l1, l2⟩ := lit1000
  have hb0 : (F64.lit 1000).absVal ≠ 0 := absVal_ne_zero_iff.2 (by rw [l1]; norm_num)
  obtain ⟨gs, k1⟩ := big_bound
  obtain ⟨hc, sa⟩ := big_bound_milli
  have s1000 := thousand_sign
  have h1000 : (F64.lit 1000).val ≠ 0 := by rw [l1]; norm_num
  clear l1
  obtain ⟨g1, g2, g3⟩ := le_iff.1 h
  have hen : (e.mul (F64.lit 1000)).isNaN = false := mul_not_nan g2 l2 h1000
  rw [milli_eq hen]
  clear h
  generalize F64.lit 2147484 = B at *
  generalize F64.lit 1000 = K at *
  have es : e.sign = false := by
    by_contra hs
    rw [Bool.not_eq_false] at hs
    have k2 : e.scaled ≤ 0 := by
      unfold FP.scaled; rw [hs, if_pos rfl]; omega
    omega
  have hmag : B.mag.val ≤ e.mag.val := by
    unfold FP.scaled at g3; rw [gs, es, if_neg (by decide), if_neg (by decide)] at g3
    exact magVal_le_iff.1 (Int.ofNat_le.1 g3)
  have hmono := mul_mag_mono g1 g2 l2 hb0 hmag
  have sb := mul_sign_pos es s1000 hen
  have ht : (B.mul K).truncInt ≤ (e.mul K).truncInt := by
    have := absVal_le_of_mag hmono
    unfold truncInt
    rw [sa, sb]
    simp only [Bool.false_eq_true, if_false]
    exact Int.ofNat_le.2 (Nat.div_le_div_right this)
  omega

/-- Which bounds are searched for: all of magnitude up to a million; NaN and everything from 2147484 on (also infinity) are not. -/
theorem C24_which_bounds (e : F64) : (e.isFinite = true → |e.val| ≤ 1000000 → Searches e) ∧ (e.isNaN = true → ¬ Searches e) ∧
    ((F64.lit 2147484).le e = true → ¬ Searches e) := by
  refine ⟨fun h1 h2 => fft_entered h1 h2, fun h hs => ?_, fun h hs => ?_⟩
  · rw [searches_iff, milli_nan h, milli_nan (by unfold FP.add; rw [h]; rfl)] at hs
    exact lt_irrefl _ hs
  · rw [searches_iff, milli_big h] at hs
    have := milli_le (e.add (F64.lit 1))
    omega

/-- The three cases occur. -/
example : OneSingle collapsedPair ∧ ¬ OneSingle [F64.lit 1, F64.lit 2] ∧ Searches (F64.lit 0) ∧ ¬ Searches (F64.lit 3000000) := by
  refine ⟨?_, ?_, ?_, ?_⟩
  · intro a ha b hb
    have : ∀ a ∈ collapsedPair, ∀ b ∈ collapsedPair, (FP.cvt a : F32).lt (FP.cvt b : F32) = false := by decide +kernel
    exact this a ha b hb
  · intro h
    have := h (F64.lit 1) (by simp) (F64.lit 2) (by simp)
    revert this; decide +kernel
  · unfold Searches; decide +kernel
  · unfold Searches; decide +kernel

/-- **C22, for every bound that is searched for.** The transform length of the decoder is that of the encoder and the window is where the chunk sits (`FrameOf`). -/
theorem C22_exact (E : Ext) (hE : E.Lawful) (data : List F64) (hne : data ≠ []) (hlen : data.length < 2 ^ 62) (hn : ∀ y ∈ data, y.isNaN = false) (e : F64)
    (ho : ¬ OneSingle data) (hs : Searches e) :
    ∃ r, Compressor.fft.boundedResults E data e = .ok r ∧ Compressor.fft.compressBounded E data e = .ok r.data ∧ FrameOf E data r := by
  obtain ⟨r, h1, h2, -, -, h3⟩ := C24_exact E hE data hne hlen hn e
  exact ⟨r, h1, h2, h3 ho hs⟩

end Atsc
