import Verif.Props.Fft
import Verif.Lemmas.Cvt
/- C64: the spectrum the FFT decoder rebuilds, and C65: nothing of the spectrum is lost when every non-zero bin is kept. -/
namespace Atsc
open FP

theorem mirror_untouched (len : Nat) : ∀ (fs : List FreqPoint) (data out : List C32), data.length = len → (∀ f ∈ fs, f.pos < len) →
    mirrorLoop len fs data = .ok out →
    ∀ i, (∀ f ∈ fs, i ≠ f.pos ∧ (f.pos ≠ 0 → i ≠ len - f.pos)) → out[i]? = data[i]? := by
  intro fs
  induction fs with
  | nil => intro data out _ _ h i _; rw [Except.ok.inj h]
  | cons f fs ih =>
    intro data out hl hp h i hi
    have hf := hp f (by simp)
    have hif := hi f (by simp)
    unfold mirrorLoop at h
    have h1 : setAt data f.pos f.toComplex = .ok (data.set f.pos f.toComplex) := by
      unfold setAt; rw [if_pos (by omega)]
    rw [h1, ok_bind] at h
    split_ifs at h with h0
    · rw [ih _ _ (by simp [hl]) (fun g hg => hp g (by simp [hg])) h i (fun g hg => hi g (by simp [hg])),
        List.getElem?_set_ne (Ne.symm hif.1)]
    · have h2 : setAt (data.set f.pos f.toComplex) (len - f.pos) f.toInvComplex =
          .ok ((data.set f.pos f.toComplex).set (len - f.pos) f.toInvComplex) := by
        unfold setAt; rw [if_pos (by simp; omega)]
      rw [h2, ok_bind] at h
      rw [ih _ _ (by simp [hl]) (fun g hg => hp g (by simp [hg])) h i (fun g hg => hi g (by simp [hg])),
        List.getElem?_set_ne (Ne.symm (hif.2 h0)), List.getElem?_set_ne (Ne.symm hif.1)]

theorem neg_one_mul {x : F32} (h : x.isNaN = false) : x.mul (FP.ofInt (-1)) = x.neg := by
  have m1 : (FP.ofInt (-1) : F32).isNaN = false ∧ (FP.ofInt (-1) : F32).isInf = false ∧ (FP.ofInt (-1) : F32).sign = true ∧
      (FP.ofInt (-1) : F32).absVal = 2 ^ qexp 23 8 := by decide +kernel
  obtain ⟨a1, a2, a3, a4⟩ := m1
  have hle := mag_le_of_not_nan h
  unfold FP.mul
  rw [h, a1, a2, a3, a4]
  simp only [Bool.or_self, Bool.false_eq_true, if_false, Bool.or_false]
  have hsg : (x.sign != true) = !x.sign := by cases x.sign <;> rfl
  rw [hsg]
  by_cases hi : x.isInf = true
  · rw [if_pos hi]
    have hx0 : x.absVal ≠ 0 := by
      have : x.mag.val = infMag 23 8 := by simpa [isInf] using hi
      unfold FP.absVal; rw [this, Ne, magVal_eq_zero]; decide
    rw [if_neg (by simp [hx0])]
    rw [ext_iff']
    have : x.mag.val = infMag 23 8 := by simpa [isInf] using hi
    refine ⟨rfl, ?_⟩
    show min (infMag 23 8) (infMag 23 8) = x.mag.val
    rw [this]; simp
  · rw [if_neg hi, ext_iff']
    refine ⟨rfl, ?_⟩
    show min (roundPat 23 (x.absVal * 2 ^ qexp 23 8) (2 ^ qexp 23 8)) (infMag 23 8) = x.mag.val
    unfold FP.absVal
    rw [roundPat_exact 23 _ (qpow_pos _ _)]
    omega

theorem toInv_conj (f : FreqPoint) : C32.IsConj { re := f.re, im := f.im } f.toInvComplex :=
  ⟨rfl, fun h => neg_one_mul h⟩

theorem mirror_spectrum (len : Nat) : ∀ (fs : List FreqPoint) (data out : List C32), data.length = len →
    (∀ f ∈ fs, f.pos < len ∧ f.pos ≤ len / 2) → (fs.map (·.pos)).Nodup → mirrorLoop len fs data = .ok out →
    (∀ f ∈ fs, 2 * f.pos ≠ len → out[f.pos]? = some f.toComplex) ∧
    (∀ f ∈ fs, f.pos ≠ 0 → out[len - f.pos]? = some f.toInvComplex) := by
  intro fs
  induction fs with
  | nil => intro data out _ _ _ _; exact ⟨by simp, by simp⟩
  | cons f fs ih =>
    intro data out hl hp hnd h
    have hf := hp f (by simp)
    rw [List.map_cons, List.nodup_cons] at hnd
    have hother : ∀ g ∈ fs, g.pos ≠ f.pos := fun g hg e => hnd.1 (by rw [← e]; exact List.mem_map_of_mem hg)
    have hps : ∀ g ∈ fs, g.pos < len ∧ g.pos ≤ len / 2 := fun g hg => hp g (by simp [hg])
    unfold mirrorLoop at h
    have h1 : setAt data f.pos f.toComplex = .ok (data.set f.pos f.toComplex) := by
      unfold setAt; rw [if_pos (by omega)]
    rw [h1, ok_bind] at h
    split_ifs at h with h0
    · obtain ⟨i1, i2⟩ := ih _ _ (by simp [hl]) hps hnd.2 h
      refine ⟨fun g hg => ?_, fun g hg => ?_⟩
      · rcases List.mem_cons.1 hg with rfl | hg
        · intro hne
          rw [mirror_untouched len fs _ _ (by simp [hl]) (fun g hg => (hps g hg).1) h]
          · rw [List.getElem?_set_self (by omega)]
          · intro k hk
            have := hother k hk
            have := hps k hk
            exact ⟨by omega, by omega⟩
        · exact i1 g hg
      · rcases List.mem_cons.1 hg with rfl | hg
        · intro hh; exact absurd h0 hh
        · exact i2 g hg
    · have h2 : setAt (data.set f.pos f.toComplex) (len - f.pos) f.toInvComplex =
          .ok ((data.set f.pos f.toComplex).set (len - f.pos) f.toInvComplex) := by
        unfold setAt; rw [if_pos (by simp; omega)]
      rw [h2, ok_bind] at h
      obtain ⟨i1, i2⟩ := ih _ _ (by simp [hl]) hps hnd.2 h
      have hun := mirror_untouched len fs _ _ (by simp [hl]) (fun g hg => (hps g hg).1) h
      refine ⟨fun g hg => ?_, fun g hg => ?_⟩
      · rcases List.mem_cons.1 hg with rfl | hg
        · intro hne
          rw [hun]
          · rw [List.getElem?_set_ne (by omega), List.getElem?_set_self (by omega)]
          · intro k hk
            have := hother k hk
            have := hps k hk
            exact ⟨by omega, by omega⟩
        · exact i1 g hg
      · rcases List.mem_cons.1 hg with rfl | hg
        · intro _
          rw [hun]
          · rw [List.getElem?_set_self (by simp; omega)]
          · intro k hk
            have := hother k hk
            have := hps k hk
            exact ⟨by omega, by omega⟩
        · exact i2 g hg

/-- The spectrum handed to the inverse transform. -/
theorem getMirrored_spec (c : Fft) (N : Nat) (hN : 1 ≤ N) (hnd : (c.frequencies.map (·.pos)).Nodup) (hp : ∀ f ∈ c.frequencies, f.pos ≤ N / 2) :
    ∃ sp, c.getMirrored N = .ok sp ∧ MirrorSpectrum c.frequencies N sp := by
  have hp' : ∀ f ∈ c.frequencies, f.pos < N ∨ (N = 1 ∧ f.pos = 0) := fun f hf => by have := hp f hf; omega
  have hlt : ∀ f ∈ c.frequencies, f.pos < N := fun f hf => by have := hp f hf; omega
  obtain ⟨sp, h1, h2⟩ := getMirrored_ok c N hlt
  refine ⟨sp, h1, h2, ?_, ?_, ?_⟩
  · exact (mirror_spectrum N _ _ _ (by simp) (fun f hf => ⟨hlt f hf, hp f hf⟩) hnd h1).1
  · intro f hf h0
    exact ⟨_, (mirror_spectrum N _ _ _ (by simp) (fun f hf => ⟨hlt f hf, hp f hf⟩) hnd h1).2 f hf h0, toInv_conj f⟩
  · intro i hi hu
    rw [mirror_untouched N _ _ _ (by simp) hlt h1 i hu, List.getElem?_replicate, if_pos hi]

theorem clamp_close {lo hi r w t : ℚ} (h : |r - w| ≤ t) : |max lo (min r hi) - max lo (min w hi)| ≤ t := by
  have ⟨h1, h2⟩ := abs_le.1 h
  have h0 : 0 ≤ t := le_trans (abs_nonneg _) h
  rw [abs_le]
  simp only [max_def, min_def]
  constructor <;> split_ifs <;> linarith

theorem fftRound_within (c : Fft) (x : F32) (h : (FP.cvt c.minValue : F64).le (FP.cvt c.maxValue) = true) :
    RoundedWithin (FP.cvt c.minValue) (FP.cvt c.maxValue) (FP.cvt x) (c.round x 5) := by
  refine ⟨fftRound_range c x h, ?_⟩
  intro hf hb
  obtain ⟨hrf, he⟩ := decimal_err hf hb (show 5 ≤ 9 by decide)
  have hle := le_iff.1 h
  have hv : (FP.cvt c.minValue : F64).val ≤ (FP.cvt c.maxValue : F64).val := (val_le_iff (by decide)).2 hle.2.2
  have hc := clamp_close (lo := (FP.cvt c.minValue : F64).val) (hi := (FP.cvt c.maxValue : F64).val) he
  rw [fftRound_eq]
  split_ifs with c1 c2
  · have v3 := (val_lt_iff (by decide)).2 (lt_iff.1 c1).2.2
    refine ⟨hle.2.1, ?_⟩
    rw [min_eq_right v3.le, max_eq_right hv] at hc; exact hc
  · have v3 := (val_lt_iff (by decide)).2 (lt_iff.1 c2).2.2
    refine ⟨hle.1, ?_⟩
    rw [min_eq_left (by linarith), max_eq_left v3.le] at hc; exact hc
  · refine ⟨isFinite_not_nan hrf, ?_⟩
    have v1 := (val_le_iff (by decide)).2 (le_iff.1 (le_of_not_lt hle.2.1 (isFinite_not_nan hrf) c1)).2.2
    have v2 := (val_le_iff (by decide)).2 (le_iff.1 (le_of_not_lt (isFinite_not_nan hrf) hle.1 c2)).2.2
    rw [min_eq_left v1, max_eq_right v2] at hc; exact hc

theorem transformLength_eq {n N pre : Nat} (h : TransformLength n N pre) : N = paddedLen n ∧ pre = padBefore n := by
  unfold paddedLen padBefore
  rcases h with ⟨a, rfl, rfl⟩ | ⟨a, b, c⟩
  · rw [if_neg (by omega), if_neg (by omega)]; exact ⟨rfl, rfl⟩
  · rw [if_pos (by omega), if_pos (by omega)]
    have : N = nextSize n := b.unique (C33_next_size n)
    exact ⟨this, by rw [c, this]⟩

/-- C64: decompressing an FFT frame (any frame, also a hand-made one) with distinct positions in the first half: the inverse transform runs once, at the
transform length, on the spectrum made of the stored frequencies, their mirrored conjugates and zeros; every sample is the real part of its output at
the sample's place, divided by the length, rounded to five decimals within the frame's limits. -/
theorem C64_decoder_spectrum (E : Ext) (hE : E.Lawful) (n N pre : Nat) (hn : 1 ≤ n) (hN : TransformLength n N pre) (bs : Bytes) (c : Fft)
    (hdec : unwrapDec Fft.dec bs = .ok c) (hc : c.minValue.lt c.maxValue = true)
    (hnd : (c.frequencies.map (·.pos)).Nodup) (hp : ∀ f ∈ c.frequencies, f.pos ≤ N / 2) :
    ∃ sp out, MirrorSpectrum c.frequencies N sp ∧ Compressor.fft.decompress E n bs = .ok out ∧ out.length = n ∧
      ∀ i (hi : i < out.length), ∃ z, (E.fftInv sp)[pre + i]? = some z ∧
        RoundedWithin (FP.cvt c.minValue) (FP.cvt c.maxValue) (FP.cvt (z.re.div (FP.ofInt N))) out[i] := by
  obtain ⟨rfl, rfl⟩ := transformLength_eq hN
  have hge := paddedLen_ge n
  obtain ⟨sp, h1, h2⟩ := getMirrored_spec c (paddedLen n) (by omega) hnd hp
  have hlt := lt_iff.1 hc
  have hne : c.maxValue.feq c.minValue = false := by
    rw [Bool.eq_false_iff]; intro h; have := (feq_iff.1 h).2.2; omega
  have hle : (FP.cvt c.minValue : F64).le (FP.cvt c.maxValue) = true :=
    cvt_mono infMag32_pos (le_iff.2 ⟨hlt.1, hlt.2.1, by omega⟩)
  have hw : padBefore n + n ≤ paddedLen n := by unfold padBefore paddedLen; split_ifs <;> have := nextSize_gt n <;> omega
  have hlen : (E.fftInv sp).length = paddedLen n := by rw [hE.inv_len, h2.len]
  refine ⟨sp, ((((E.fftInv sp).map fun f => c.round (f.re.div (FP.ofInt (paddedLen n))) 5).drop (padBefore n)).take n), h2, ?_, ?_, ?_⟩
  · simp only [Compressor.decompress, fftToData]
    rw [hdec, ok_bind, toData_window E hE c n hne]
    unfold Fft.reconstruct
    rw [h1, ok_bind, ok_bind]
  · simp [hlen]; omega
  · intro i hi
    simp only [List.length_take, List.length_drop, List.length_map, hlen] at hi
    have hi' : padBefore n + i < (E.fftInv sp).length := by omega
    refine ⟨(E.fftInv sp)[padBefore n + i], List.getElem?_eq_getElem hi', ?_⟩
    simp only [List.getElem_take, List.getElem_drop, List.getElem_map]
    exact fftRound_within c _ hle

/-- C65: when the spectrum is that of a real series and every non-zero bin of its first half is stored, the decoder's spectrum equals the encoder's, bin by
bin, as numbers. -/
theorem C65_complete_spectrum (fs : List FreqPoint) (sp dec : List C32) (hd : MirrorSpectrum fs sp.length dec) (hh : Hermitian sp)
    (hs : ∀ f ∈ fs, f.pos ≤ sp.length / 2 ∧ sp[f.pos]? = some { re := f.re, im := f.im })
    (hall : ∀ i ≤ sp.length / 2, ∀ z : C32, sp[i]? = some z → (∃ f ∈ fs, f.pos = i) ∨ (z.re.feq FP.zero = true ∧ z.im.feq FP.zero = true)) :
    ∀ (i : Nat) (a b : C32), sp[i]? = some a → dec[i]? = some b → b.re.feq a.re = true ∧ b.im.feq a.im = true := by
  have zneg : ∀ x : F32, x.isNaN = false → x.neg.isNaN = false ∧ x.neg.scaled = -x.scaled := by
    intro x hx
    refine ⟨hx, ?_⟩
    unfold FP.scaled FP.neg FP.absVal
    cases x.sign <;> simp
  intro i a b ha hb
  have hi : i < sp.length := (List.getElem?_eq_some_iff.1 ha).1
  have hfa := hh.finite a (List.mem_of_getElem? ha)
  have hz0 : (FP.zero : F32).isNaN = false ∧ (FP.zero : F32).scaled = 0 := by decide +kernel
  -- the bin of the first half that decides
  by_cases h1 : ∃ f ∈ fs, i = f.pos
  · obtain ⟨f, hf, rfl⟩ := h1
    obtain ⟨hp, hv⟩ := hs f hf
    rw [ha] at hv
    have hv := Option.some.inj hv
    by_cases hmid : 2 * f.pos = sp.length
    · -- the middle bin
      have h0 : f.pos ≠ 0 := by omega
      obtain ⟨b', hb', hc⟩ := hd.mirror f hf h0
      have e : sp.length - f.pos = f.pos := by omega
      rw [e, hb] at hb'
      obtain rfl := Option.some.inj hb'
      have hsym := hh.sym f.pos (by omega) hi a a ha (by rw [e]; exact ha)
      have him : a.im = f.im := by rw [hv]
      have hre : a.re = f.re := by rw [hv]
      have hbr : b.re = a.re := by rw [hc.1, hre]
      have hbi : b.im = a.im.neg := by rw [hc.2 (by show f.im.isNaN = false; rw [← him]; exact hfa.2), him]
      rw [hbr, hbi]
      exact ⟨feq_refl hfa.1, feq_symm hsym.2⟩
    · have := hd.kept f hf hmid
      rw [hb] at this
      have := Option.some.inj this
      rw [this, hv]
      rw [hv] at hfa
      exact ⟨feq_refl hfa.1, feq_refl hfa.2⟩
  · by_cases h2 : ∃ f ∈ fs, f.pos ≠ 0 ∧ i = sp.length - f.pos
    · obtain ⟨f, hf, h0, rfl⟩ := h2
      obtain ⟨hp, hv⟩ := hs f hf
      obtain ⟨b', hb', hc⟩ := hd.mirror f hf h0
      rw [hb] at hb'
      obtain rfl := Option.some.inj hb'
      have hff := hh.finite _ (List.mem_of_getElem? hv)
      have hsym := hh.sym f.pos (by omega) (by omega) _ a hv ha
      have hbi : b.im = f.im.neg := hc.2 hff.2
      have hbr : b.re = f.re := hc.1
      rw [hbr, hbi]
      refine ⟨hsym.1, ?_⟩
      have h3 := feq_iff.1 hsym.2
      have h4 := zneg _ hfa.2
      have h5 := zneg _ hff.2
      refine feq_iff.2 ⟨h5.1, hfa.2, ?_⟩
      rw [h5.2]
      have := h3.2.2
      have e : f.im.scaled = a.im.neg.scaled := this
      rw [e, h4.2]; ring
    · -- nothing stored: the bin is zero
      have hz := hd.rest i hi (fun f hf => ⟨fun e => h1 ⟨f, hf, e⟩, fun h0 e => h2 ⟨f, hf, h0, e⟩⟩)
      rw [hb] at hz
      obtain rfl := Option.some.inj hz
      by_cases hhalf : i ≤ sp.length / 2
      · rcases hall i hhalf a ha with ⟨f, hf, e⟩ | ⟨h3, h4⟩
        · exact absurd ⟨f, hf, e.symm⟩ h1
        · exact ⟨feq_symm h3, feq_symm h4⟩
      · have hm : sp.length - i < sp.length := by omega
        obtain ⟨m, hm'⟩ : ∃ m, sp[sp.length - i]? = some m := ⟨_, List.getElem?_eq_getElem hm⟩
        have hsym := hh.sym i (by omega) hi a m ha hm'
        have hfm := hh.finite _ (List.mem_of_getElem? hm')
        rcases hall (sp.length - i) (by omega) m hm' with ⟨f, hf, e⟩ | ⟨h3, h4⟩
        · exact absurd ⟨f, hf, by omega, by omega⟩ h2
        · have h5 := feq_iff.1 h4
          have h6 := feq_iff.1 hsym.2
          have h7 := zneg _ hfm.2
          refine ⟨feq_symm (feq_trans hsym.1 h3), feq_iff.2 ⟨hz0.1, hfa.2, ?_⟩⟩
          have e1 : a.im.scaled = m.im.neg.scaled := h6.2.2
          have e2 : m.im.scaled = (FP.zero : F32).scaled := h5.2.2
          rw [e1, h7.2, e2, hz0.2]; rfl


theorem sameBins_of (fs : List FreqPoint) (sp dec : List C32) (hd : MirrorSpectrum fs sp.length dec) (hh : Hermitian sp)
    (hs : ∀ f ∈ fs, f.pos ≤ sp.length / 2 ∧ sp[f.pos]? = some { re := f.re, im := f.im })
    (hall : ∀ i ≤ sp.length / 2, ∀ z : C32, sp[i]? = some z → (∃ f ∈ fs, f.pos = i) ∨ (z.re.feq FP.zero = true ∧ z.im.feq FP.zero = true)) :
    SameBins sp dec := ⟨hd.len.symm, C65_complete_spectrum fs sp dec hd hh hs hall⟩

/-- When the norm separates zero and the heap is ordered, a frame with fewer frequencies than asked for has all non-zero bins. -/
theorem fftTrim_all {E : Ext} (hE : E.Lawful) (hZ : E.NormSeparates) {g : List F64} {k : Nat} (hk : k ≠ 1)
    (hlen : g.length ≤ 131071) (hg : 1 ≤ g.length) (hkn : g.length / 2 + 1 ≤ k)
    (hnorm : ∀ c ∈ E.spectrum g, (E.norm c).isNaN = false)
    {fs : List FreqPoint} (h : fftTrim E (fftHalf E g) k = .ok fs) :
    ∀ i ≤ (E.spectrum g).length / 2, ∀ z : C32, (E.spectrum g)[i]? = some z →
      (∃ f ∈ fs, f.pos = i) ∨ (z.re.feq FP.zero = true ∧ z.im.feq FP.zero = true) := by
  have hsl : (E.spectrum g).length = g.length := by unfold Ext.spectrum; rw [hE.fwd_len, List.length_map]
  rw [fftTrim_ok hE hk] at h
  have h := Except.ok.inj h
  have hb : (fftHalf E g).mapIdx (fun pos b => FreqPoint.of b pos) = bins (E.spectrum g) := rfl
  rw [hb] at h
  have hbl : (bins (E.spectrum g)).length = g.length / 2 + 1 := by
    unfold bins; rw [List.length_mapIdx, List.length_take, hsl]; omega
  have hperm := E.pops_perm (bins (E.spectrum g))
  have hpw : (E.heapPops (bins (E.spectrum g))).Pairwise fun a b => (E.norm a.toComplex).lt (E.norm b.toComplex) = false := by
    apply E.pops_sorted
    intro f hf
    obtain ⟨p, hp, rfl⟩ := List.mem_mapIdx.1 hf
    exact hnorm _ (List.mem_of_mem_take (List.getElem_mem hp))
  rw [List.take_of_length_le (by rw [hperm.length_eq, hbl]; exact hkn)] at h
  intro i hi z hz
  by_cases hz0 : z.re.feq FP.zero = true ∧ z.im.feq FP.zero = true
  · exact Or.inr hz0
  left
  have hmem : FreqPoint.of z i ∈ bins (E.spectrum g) := by
    unfold bins
    rw [List.mem_mapIdx]
    have hi2 : i < (E.spectrum g).length := (List.getElem?_eq_some_iff.1 hz).1
    refine ⟨i, by rw [List.length_take]; omega, ?_⟩
    rw [List.getElem_take, (List.getElem?_eq_some_iff.1 hz).2]; rfl
  refine ⟨FreqPoint.of z i, ?_, ?_⟩
  · rw [← h]
    have hml := hperm.symm.subset hmem
    -- nothing before it in the order is zero
    have key : ∀ l : List FreqPoint, l.Pairwise (fun a b => (E.norm a.toComplex).lt (E.norm b.toComplex) = false) →
        (∀ f ∈ l, (E.norm f.toComplex).isNaN = false) → FreqPoint.of z i ∈ l →
        FreqPoint.of z i ∈ l.takeWhile fun f => !(f.im.feq FP.zero && f.re.feq FP.zero) := by
      intro l
      induction l with
      | nil => intro _ _ hm; exact absurd hm (by simp)
      | cons a l ih =>
        intro hp hn hm
        rw [List.pairwise_cons] at hp
        rw [List.takeWhile_cons]
        have hnz : (!((FreqPoint.of z i).im.feq FP.zero && (FreqPoint.of z i).re.feq FP.zero)) = true := by
          rw [Bool.not_eq_true']
          rw [Bool.eq_false_iff]
          intro hc
          rw [Bool.and_eq_true] at hc
          exact hz0 ⟨hc.2, hc.1⟩
        rcases List.mem_cons.1 hm with rfl | hm
        · rw [if_pos hnz]; simp
        · by_cases ha : (!(a.im.feq FP.zero && a.re.feq FP.zero)) = true
          · rw [if_pos ha]
            exact List.mem_cons_of_mem _ (ih hp.2 (fun f hf => hn f (by simp [hf])) hm)
          · exfalso
            rw [Bool.not_eq_true, Bool.not_eq_false', Bool.and_eq_true] at ha
            have := hZ a.toComplex (FreqPoint.of z i).toComplex ha.2 ha.1 hz0 (hn _ (by simp [hm]))
            rw [hp.1 _ hm] at this
            exact Bool.noConfusion this
    refine key _ hpw ?_ hml
    intro f hf
    obtain ⟨p, hp, rfl⟩ := List.mem_mapIdx.1 (hperm.subset hf)
    exact hnorm _ (List.mem_of_mem_take (List.getElem_mem hp))
  · show i % 65536 = i
    apply Nat.mod_eq_of_lt; omega

theorem single_close {x : F64} (hx : x.isFinite = true) {M : ℚ} (hM : |x.val| ≤ M) (hM2 : M ≤ 2 ^ 127) :
    |(FP.cvt (FP.cvt x : F32) : F64).val - x.val| ≤ M / 2 ^ 24 + 1 / 2 ^ 150 := by
  obtain ⟨h1, h2⟩ := narrow_err hx (le_trans hM hM2)
  obtain ⟨_, h3⟩ := widen_val h1
  rw [h3]
  have h0 : 0 ≤ M := le_trans (abs_nonneg _) hM
  refine le_trans h2 (max_le ?_ ?_)
  · have : 0 ≤ M / 2 ^ 24 := by positivity
    linarith
  · have : |x.val| / 2 ^ 24 ≤ M / 2 ^ 24 := div_le_div_of_nonneg_right hM (by positivity)
    have : (0 : ℚ) ≤ 1 / 2 ^ 150 := by positivity
    linarith

/-- A frame with all non-zero bins, decoded. -/
theorem all_bins_accuracy (E : Ext) (hE : E.Lawful) (data : List F64) (hlen : data.length < 2 ^ 62) (hfin : AllFinite data) (M : ℚ)
    (hM : ∀ x ∈ data, |x.val| ≤ M) (hM2 : M ≤ 2 ^ 127)
    (a b : F64) (ha : a ∈ data) (hb : b ∈ data) (hab : (FP.cvt a : F32).lt (FP.cvt b : F32) = true)
    (g : List F64) (pre : Nat) (hg : PaddedChunk data g pre) (ε : ℚ) (hinv : E.InvertsWithin g ε) (hh : Hermitian (E.spectrum g))
    (st : DataStats) (hst : DataStats.new data = .ok st) (fs : List FreqPoint) (hok : ({ Fft.start st with frequencies := fs } : Fft).Ok)
    (hnd : (fs.map (·.pos)).Nodup)
    (hs : ∀ f ∈ fs, f.pos ≤ (E.spectrum g).length / 2 ∧ (E.spectrum g)[f.pos]? = some { re := f.re, im := f.im })
    (hall : ∀ i ≤ (E.spectrum g).length / 2, ∀ z : C32, (E.spectrum g)[i]? = some z →
      (∃ f ∈ fs, f.pos = i) ∨ (z.re.feq FP.zero = true ∧ z.im.feq FP.zero = true)) :
    ∃ out, Compressor.fft.decompress E data.length ({ Fft.start st with frequencies := fs } : Fft).enc = .ok out ∧ out.length = data.length ∧
      ∀ (i : Nat) (x y : F64), data[i]? = some x → out[i]? = some y →
        y.isNaN = false ∧ |y.val - x.val| ≤ ε + 1 / (2 * 10 ^ 5) + (M + ε + 1) / 2 ^ 23 := by
  have hne : data ≠ [] := by rintro rfl; simp at ha
  have h1 : 1 ≤ data.length := List.length_pos_of_ne_nil hne
  have hn : ∀ y ∈ data, y.isNaN = false := fun y hy => isFinite_not_nan (hfin y hy)
  obtain ⟨rfl, rfl⟩ := hg.unique (C22_padding data hne)
  have hc := fft_nonconst hn hst ha hb hab
  have hsl : (E.spectrum (gibbsData data)).length = (gibbsData data).length := by unfold Ext.spectrum; rw [hE.fwd_len, List.length_map]
  have hgl := gibbsData_length h1
  have hw := gibbsData_window h1
  obtain ⟨hmin, hmax, hrange⟩ := stats_range hne hn hst
  set c : Fft := { Fft.start st with frequencies := fs } with hcdef
  have hTL : TransformLength data.length (gibbsData data).length (padBefore data.length) := by
    rcases hg with ⟨k1, k2, k3⟩ | ⟨k1, _, _, _, _, _, _, k3, k4⟩
    · exact Or.inl ⟨k1, by rw [k2], k3⟩
    · exact Or.inr ⟨k1, k3, k4⟩
  have hlt : c.minValue.lt c.maxValue = true := by
    have k1 := le_iff.1 (cvt_mono (mb' := 23) (eb' := 8) infMag64_pos (hrange a ha).1)
    have k2 := le_iff.1 (cvt_mono (mb' := 23) (eb' := 8) infMag64_pos (hrange b hb).2)
    have k3 := lt_iff.1 hab
    have e1 : c.minValue = FP.cvt st.min := rfl
    have e2 : c.maxValue = FP.cvt st.max := rfl
    rw [e1, e2]
    exact lt_iff.2 ⟨k1.1, k2.2.1, by omega⟩
  rw [hsl] at hs hall
  obtain ⟨sp, out, hsp, hdec, hol, hout⟩ := C64_decoder_spectrum E hE data.length _ _ h1 hTL c.enc c (fft_unwrap c hok) hlt hnd
    (fun f hf => (hs f hf).1)
  have hsame : SameBins (E.spectrum (gibbsData data)) sp := by
    apply sameBins_of fs _ _ (by rw [hsl]; exact hsp) hh
    · intro f hf; rw [hsl]; exact hs f hf
    · intro i hi; rw [hsl] at hi; exact hall i hi
  refine ⟨out, hdec, hol, ?_⟩
  intro i x y hx hy
  have hi : i < out.length := (List.getElem?_eq_some_iff.1 hy).1
  obtain ⟨z, hz, _, hr⟩ := hout i hi
  rw [(List.getElem?_eq_some_iff.1 hy).2] at hr
  have hgx : (gibbsData data)[padBefore data.length + i]? = some x := by
    rw [← hw, List.getElem?_take_of_lt (by omega), List.getElem?_drop] at hx
    exact hx
  obtain ⟨z', hz', hzf, hzv⟩ := hinv sp hsame _ x hgx
  rw [hz] at hz'
  obtain rfl := Option.some.inj hz'
  obtain ⟨wf, wv⟩ := widen_val hzf
  set w : F64 := FP.cvt (z.re.div (FP.ofInt (gibbsData data).length)) with hwdef
  have hxm := List.mem_of_getElem? hx
  have hxM := hM x hxm
  rw [← wv] at hzv
  have hε : 0 ≤ ε := le_trans (abs_nonneg _) hzv
  have hM0 : 0 ≤ M := le_trans (abs_nonneg _) hxM
  have hwb : |w.val| ≤ 2 ^ 900 := by
    rw [wv, abs_val (by decide), div_le_iff₀ (qpow_posQ 23 8)]
    have hm : (z.re.div (FP.ofInt (gibbsData data).length)).mag.val < infMag 23 8 := by simpa [isFinite] using hzf
    have := (magVal_lt_iff (mb := 23)).2 hm
    rw [magVal_infMag 23 (by decide), ← pow_add] at this
    have h3 : (z.re.div (FP.ofInt (gibbsData data).length)).absVal ≤ 2 ^ 900 * 2 ^ qexp 23 8 := by
      rw [← pow_add]
      exact le_trans this.le (Nat.pow_le_pow_right (Nat.succ_pos 1) (by decide))
    exact_mod_cast h3
  obtain ⟨hyn, hyv⟩ := hr wf hwb
  refine ⟨hyn, ?_⟩
  have l1 : (FP.cvt c.minValue : F64).val ≤ x.val + (M / 2 ^ 24 + 1 / 2 ^ 150) := by
    have k1 := single_close (hfin st.min hmin) (hM _ hmin) hM2
    have k2 := (val_le_iff (by decide)).2 (le_iff.1 (hrange x hxm).1).2.2
    have e1 : c.minValue = FP.cvt st.min := rfl
    rw [e1]
    have := (abs_le.1 k1).2
    linarith
  have l2 : x.val - (M / 2 ^ 24 + 1 / 2 ^ 150) ≤ (FP.cvt c.maxValue : F64).val := by
    have k1 := single_close (hfin st.max hmax) (hM _ hmax) hM2
    have k2 := (val_le_iff (by decide)).2 (le_iff.1 (hrange x hxm).2).2.2
    have e1 : c.maxValue = FP.cvt st.max := rfl
    rw [e1]
    have := (abs_le.1 k1).1
    linarith
  have hle := (val_le_iff (by decide)).2 (le_iff.1 (cvt_mono (mb' := 52) (eb' := 11) infMag32_pos (le_iff.2 ⟨(lt_iff.1 hlt).1, (lt_iff.1 hlt).2.1, (lt_iff.1 hlt).2.2.le⟩))).2.2
  have hwx : |w.val| ≤ M + ε := by
    have := abs_sub_abs_le_abs_sub w.val x.val
    linarith
  generalize (FP.cvt c.minValue : F64).val = lo at *
  generalize (FP.cvt c.maxValue : F64).val = hi' at *
  have hδ : 0 ≤ M / 2 ^ 24 + 1 / 2 ^ 150 := by positivity
  have hcl : |max lo (min w.val hi') - x.val| ≤ ε + (M / 2 ^ 24 + 1 / 2 ^ 150) := by
    generalize M / 2 ^ 24 + 1 / 2 ^ 150 = δ at *
    have ⟨k1, k2⟩ := abs_le.1 hzv
    rw [abs_le]
    simp only [max_def, min_def]
    constructor <;> split_ifs <;> linarith
  have e150 : (1 : ℚ) / 2 ^ 150 ≤ 1 / 2 ^ 51 := by
    apply one_div_le_one_div_of_le (by positivity)
    exact pow_le_pow_right₀ (by norm_num) (by norm_num)
  have tri := abs_sub_le y.val (max lo (min w.val hi')) x.val
  have k : (|w.val| + 1) / 2 ^ 51 ≤ (M + ε + 1) / 2 ^ 51 := div_le_div_of_nonneg_right (by linarith) (by positivity)
  have e2 : (M + ε + 1) / 2 ^ 51 + M / 2 ^ 24 + 1 / 2 ^ 51 ≤ (M + ε + 1) / 2 ^ 23 := by
    rw [div_add_div _ _ (by norm_num) (by norm_num), div_add_div _ _ (by norm_num) (by norm_num), div_le_div_iff₀ (by norm_num) (by norm_num)]
    nlinarith
  linarith

/-- C65 for `fft_set` on a chunk below 128 samples with at least `n / 2 + 1` frequencies asked for: when the library's transforms are inverse to
each other up to `ε`, every sample comes back within `ε`, half a unit of the fifth decimal, and the rounding to single precision. -/
theorem C65_all_frequencies (E : Ext) (hE : E.Lawful) (hZ : E.NormSeparates) (data : List F64) (hlen : data.length < 128)
    (hfin : AllFinite data) (M : ℚ) (hM : ∀ x ∈ data, |x.val| ≤ M) (hM2 : M ≤ 2 ^ 127)
    (a b : F64) (ha : a ∈ data) (hb : b ∈ data) (hab : (FP.cvt a : F32).lt (FP.cvt b : F32) = true)
    (hnorm : ∀ c ∈ E.spectrum data, (E.norm c).isNaN = false) (hh : Hermitian (E.spectrum data)) (ε : ℚ) (hinv : E.InvertsWithin data ε)
    (k : Nat) (hk : data.length / 2 + 1 ≤ k) :
    ∃ bs out, fftSet E data k = .ok bs ∧ Compressor.fft.decompress E data.length bs = .ok out ∧ out.length = data.length ∧
      ∀ (i : Nat) (x y : F64), data[i]? = some x → out[i]? = some y →
        y.isNaN = false ∧ |y.val - x.val| ≤ ε + 1 / (2 * 10 ^ 5) + (M + ε + 1) / 2 ^ 23 := by
  have hne : data ≠ [] := by rintro rfl; simp at ha
  have hn : ∀ y ∈ data, y.isNaN = false := fun y hy => isFinite_not_nan (hfin y hy)
  have h1 : 1 ≤ data.length := List.length_pos_of_ne_nil hne
  have h2 : 2 ≤ data.length := by
    by_contra h
    obtain ⟨x, rfl⟩ := List.length_eq_one_iff.1 (show data.length = 1 by omega)
    simp only [List.mem_singleton] at ha hb
    subst ha; subst hb
    have := (lt_iff.1 hab).2.2
    omega
  have hk1 : k ≠ 1 := by omega
  obtain ⟨st, hst⟩ := stats_ok hne
  have hc := fft_nonconst hn hst ha hb hab
  have htr := fftTrim_ok hE (half := fftHalf E data) hk1
  have hset : fftSet E data k = .ok ({ Fft.start st with frequencies :=
      ((E.heapPops ((fftHalf E data).mapIdx fun pos b => FreqPoint.of b pos)).take k).takeWhile fun f => !(f.im.feq FP.zero && f.re.feq FP.zero) } : Fft).enc := by
    clear hinv hh hnorm hM ha hb hab
    obtain ⟨d0, r, rfl⟩ := List.exists_cons_of_ne_nil hne
    have hm := minMax_stats hst
    simp only [fftSet, hm]
    unfold Fft.compressHinted
    rw [if_neg (by show ¬ (Fft.start st).maxValue.feq (Fft.start st).minValue = true; rw [hc]; decide)]
    unfold fftTrim
    rw [if_neg hk1]
    rfl
  have htr' : fftTrim E (fftHalf E data) k = .ok (((E.heapPops ((fftHalf E data).mapIdx fun pos b => FreqPoint.of b pos)).take k).takeWhile
      fun f => !(f.im.feq FP.zero && f.re.feq FP.zero)) := by
    unfold fftTrim; rw [if_neg hk1]
  rw [hset]
  revert htr'
  generalize (((E.heapPops ((fftHalf E data).mapIdx fun pos b => FreqPoint.of b pos)).take k).takeWhile
      fun f => !(f.im.feq FP.zero && f.re.feq FP.zero)) = fs
  intro htr'
  have hhl := fftHalf_length hE h1
  obtain ⟨k1, k2⟩ := fft_frame_freqs hE hk1 htr' (c0 := Fft.start st) (by omega)
  have hst' := fftTrim_stores hE hk1 (by omega) htr'
  have hsl : (E.spectrum data).length = data.length := by unfold Ext.spectrum; rw [hE.fwd_len, List.length_map]
  obtain ⟨out, o1, o2, o3⟩ := all_bins_accuracy E hE data (by omega) hfin M hM hM2 a b ha hb hab data 0 (Or.inl ⟨hlen, rfl, rfl⟩) ε hinv hh st hst
    fs k1 hst'.1 (fun f hf => ⟨by have := (hst'.2 f hf).1; omega, (hst'.2 f hf).2⟩)
    (fftTrim_all hE hZ hk1 (by omega) h1 hk hnorm htr')
  exact ⟨_, out, rfl, o1, o2, o3⟩

/-- C65 for error-bounded compression of at most 49 samples: the search can reach every bin, so it either reports an error within the bound
(compared, as the code does, in whole thousandths) or its frame gives every sample back within `ε`, half a unit of the fifth decimal, and the rounding
to single precision. -/
theorem C65_bounded_short (E : Ext) (hE : E.Lawful) (hZ : E.NormSeparates) (data : List F64) (hlen : data.length ≤ 49)
    (hfin : AllFinite data) (M : ℚ) (hM : ∀ x ∈ data, |x.val| ≤ M) (hM2 : M ≤ 2 ^ 127)
    (a b : F64) (ha : a ∈ data) (hb : b ∈ data) (hab : (FP.cvt a : F32).lt (FP.cvt b : F32) = true)
    (hnorm : ∀ c ∈ E.spectrum data, (E.norm c).isNaN = false) (hh : Hermitian (E.spectrum data)) (ε : ℚ) (hinv : E.InvertsWithin data ε)
    (e : F64) (he : e.isFinite = true) (he' : |e.val| ≤ 1000000) :
    ∃ r out, Compressor.fft.boundedResults E data e = .ok r ∧ Compressor.fft.compressBounded E data e = .ok r.data ∧
      Compressor.fft.decompress E data.length r.data = .ok out ∧ out.length = data.length ∧
      (F64.toI32 (r.error.mul (F64.lit 1000)) ≤ F64.toI32 (e.mul (F64.lit 1000)) ∨
        ∀ (i : Nat) (x y : F64), data[i]? = some x → out[i]? = some y →
          y.isNaN = false ∧ |y.val - x.val| ≤ ε + 1 / (2 * 10 ^ 5) + (M + ε + 1) / 2 ^ 23) := by
  have hne : data ≠ [] := by rintro rfl; simp at ha
  have hn : ∀ y ∈ data, y.isNaN = false := fun y hy => isFinite_not_nan (hfin y hy)
  have h1 : 1 ≤ data.length := List.length_pos_of_ne_nil hne
  obtain ⟨st, hst⟩ := stats_ok hne
  have hc := fft_nonconst hn hst ha hb hab
  obtain ⟨c, r, h2, h3, h4, h5⟩ := fft_bounded_cases E hE data hne e st hst
  have hgd : gibbsData data = data := by unfold gibbsData; rw [if_neg (by omega)]
  have hbp : baselinePoints data.length = 3 := by unfold baselinePoints; split_ifs <;> omega
  have hsl : (E.spectrum data).length = data.length := by unfold Ext.spectrum; rw [hE.fwd_len, List.length_map]
  rcases h5 with ⟨h, _⟩ | ⟨_, h, _⟩ | ⟨_, _, s, ⟨⟨fs, h6, h7⟩, _⟩, _, hex, rfl, h10⟩
  · rw [hc] at h; exact absurd h (by decide)
  · exact absurd (fft_entered he he') h
  · rw [hgd, hbp] at h6
    have hhl := fftHalf_length hE h1
    obtain ⟨k1, k2⟩ := fft_frame_freqs hE (by omega) h6 (c0 := Fft.start st) (by omega)
    have hst' := fftTrim_stores hE (by omega) (by omega) h6
    rcases hex with ⟨_, hle⟩ | h23
    · obtain ⟨out, o1, o2, _⟩ := fft_frame_within E hE hne hn hst fs k1 fun f hf => by
        have := k2 f hf; have := paddedLen_ge data.length; omega
      rw [h7] at h4
      exact ⟨r, out, h2, h3, by rw [h4]; exact o1, o2, Or.inl (by rw [h10]; exact hle)⟩
    · have hcnt : data.length / 2 + 1 ≤ 3 + fftJump 3 (s.iterations - 1) := by
        have : fftJump 3 22 = 22 := by decide
        rw [h23, show 23 - 1 = 22 from rfl, this]; omega
      obtain ⟨out, o1, o2, o3⟩ := all_bins_accuracy E hE data (by omega) hfin M hM hM2 a b ha hb hab data 0 (Or.inl ⟨by omega, rfl, rfl⟩) ε hinv hh st hst
        fs k1 hst'.1 (fun f hf => ⟨by have := (hst'.2 f hf).1; omega, (hst'.2 f hf).2⟩)
        (fftTrim_all hE hZ (by omega) (by omega) h1 hcnt hnorm h6)
      rw [h7] at h4
      exact ⟨r, out, h2, h3, by rw [h4]; exact o1, o2, Or.inr o3⟩

/-- The larger of the two parts' magnitudes. -/
def C32.maxNorm (c : C32) : F32 := ⟨false, max c.re.mag c.im.mag⟩

/-- A library with the exact two-point transform, and a norm that separates zero. -/
def Ext.twoPoint : Ext := { Ext.dummy with
  fftFwd := fun b => match b with
    | [x, y] => [{ re := x.re.add y.re, im := x.im.add y.im }, { re := x.re.add y.re.neg, im := x.im.add y.im.neg }]
    | b => b
  fftInv := fun b => match b with
    | [x, y] => [{ re := x.re.add y.re, im := x.im.add y.im }, { re := x.re.add y.re.neg, im := x.im.add y.im.neg }]
    | b => b
  norm := C32.maxNorm }

theorem Ext.twoPoint_laws : Ext.twoPoint.Lawful ∧ Ext.twoPoint.NormSeparates := by
  have hl : ∀ b : List C32, (Ext.twoPoint.fftFwd b).length = b.length := by
    intro b
    match b with
    | [] => rfl
    | [_] => rfl
    | [_, _] => rfl
    | _ :: _ :: _ :: _ => rfl
  refine ⟨⟨hl, hl⟩, ?_⟩
  · intro z w hz1 hz2 hw hn
    have hz : ∀ x : F32, x.feq FP.zero = true ↔ x.mag.val = 0 := by
      intro x
      have h0 : (FP.zero : F32).isNaN = false ∧ (FP.zero : F32).scaled = 0 := by decide +kernel
      have hs : x.scaled = 0 ↔ x.mag.val = 0 := by
        rw [← magVal_eq_zero (mb := 23)]
        unfold FP.scaled FP.absVal
        cases x.sign <;> simp
      rw [feq_iff, h0.2, hs]
      constructor
      · exact fun h => h.2.2
      · intro h
        exact ⟨by simp [FP.isNaN, h], h0.1, h⟩
    rw [hz] at hz1 hz2
    rw [hz, hz] at hw
    have hzn : (Ext.twoPoint.norm z).mag.val = 0 := by
      show (max z.re.mag z.im.mag).val = 0
      rcases le_total z.re.mag z.im.mag with h | h
      · rw [max_eq_right h]; exact hz2
      · rw [max_eq_left h]; exact hz1
    have hwn : (Ext.twoPoint.norm w).mag.val ≠ 0 := by
      show (max w.re.mag w.im.mag).val ≠ 0
      intro h0
      have h1 : w.re.mag.val ≤ (max w.re.mag w.im.mag).val := le_max_left w.re.mag w.im.mag
      have h2 : w.im.mag.val ≤ (max w.re.mag w.im.mag).val := le_max_right w.re.mag w.im.mag
      exact hw ⟨by omega, by omega⟩
    refine lt_iff.2 ⟨by simp [FP.isNaN, hzn], hn, ?_⟩
    have e1 : (Ext.twoPoint.norm z).scaled = magVal 23 (Ext.twoPoint.norm z).mag.val := rfl
    have e2 : (Ext.twoPoint.norm w).scaled = magVal 23 (Ext.twoPoint.norm w).mag.val := rfl
    rw [e1, e2, hzn, magVal_zero]
    have : magVal 23 (Ext.twoPoint.norm w).mag.val ≠ 0 := by rw [Ne, magVal_eq_zero]; exact hwn
    omega

/-- Two samples, 1 and 3. -/
def pairData : List F64 := [F64.lit 1, F64.lit 3]

def pairSpectrum : List C32 := [{ re := FP.ofInt 4, im := FP.zero }, { re := FP.ofInt (-2), im := FP.zero }]

theorem pair_spectrum : Ext.twoPoint.spectrum pairData = pairSpectrum := by decide +kernel

theorem feq_eq {x y : F32} (h : x.feq y = true) (hy : y.absVal ≠ 0) : x = y := by
  obtain ⟨_, _, h3⟩ := feq_iff.1 h
  unfold FP.scaled at h3
  have hm : x.sign = y.sign ∧ x.absVal = y.absVal := by
    cases hx : x.sign <;> cases hy' : y.sign <;> simp only [hx, hy'] at h3 <;> simp at h3 ⊢ <;> omega
  rw [ext_iff']
  exact ⟨hm.1, (magVal_inj (mb := 23)).1 hm.2⟩

theorem pair_k1 : (((FP.ofInt 4 : F32).add (FP.ofInt (-2))).div (FP.ofInt 2)) = FP.ofInt 1 := by decide +kernel
theorem pair_k2 : (((FP.ofInt 4 : F32).add (FP.ofInt (-2) : F32).neg).div (FP.ofInt 2)) = FP.ofInt 3 := by decide +kernel
theorem pair_v1 : (FP.ofInt 1 : F32).scaled = 1 * 2 ^ qexp 23 8 := by decide +kernel
theorem pair_v3 : (FP.ofInt 3 : F32).scaled = 3 * 2 ^ qexp 23 8 := by decide +kernel

/-- The hypotheses of the two theorems above are met by the two-point library on two samples, with `ε = 0`. -/
example : AllFinite pairData ∧ (∀ x ∈ pairData, |x.val| ≤ 3) ∧ (FP.cvt (F64.lit 1) : F32).lt (FP.cvt (F64.lit 3)) = true ∧
    (∀ c ∈ Ext.twoPoint.spectrum pairData, (Ext.twoPoint.norm c).isNaN = false) ∧ Hermitian (Ext.twoPoint.spectrum pairData) ∧
    Ext.twoPoint.InvertsWithin pairData 0 := by
  refine ⟨by unfold AllFinite; decide +kernel, ?_, by decide +kernel, by rw [pair_spectrum]; decide +kernel, ?_, ?_⟩
  · intro x hx
    simp only [pairData, List.mem_cons, List.not_mem_nil, or_false] at hx
    rcases hx with h | h
    · rw [h, lit_val' (by decide)]; norm_num
    · rw [h, lit_val' (by decide)]; norm_num
  · rw [pair_spectrum]
    refine ⟨by decide +kernel, ?_⟩
    intro i h0 h1 a b ha hb
    have : i = 1 := by simp [pairSpectrum] at h1; omega
    subst this
    have ha' := Option.some.inj ha
    have hb' := Option.some.inj hb
    rw [← ha', ← hb']
    decide +kernel
  · rw [Ext.InvertsWithin, pair_spectrum]
    rintro sp ⟨hl, hsp⟩ i x hx
    obtain ⟨p, q, rfl⟩ := List.length_eq_two.1 (show sp.length = 2 from hl.symm)
    have hp := feq_eq (hsp 0 _ p rfl rfl).1 (by decide +kernel)
    have hq := feq_eq (hsp 1 _ q rfl rfl).1 (by decide +kernel)
    have hinv : Ext.twoPoint.fftInv [p, q] = [{ re := p.re.add q.re, im := p.im.add q.im }, { re := p.re.add q.re.neg, im := p.im.add q.im.neg }] := rfl
    have hl2 : ((FP.ofInt (pairData.length : Nat)) : F32) = FP.ofInt 2 := rfl
    rw [hinv, hp, hq, hl2]
    have hi : i < 2 := (List.getElem?_eq_some_iff.1 hx).1
    have hi2 : i = 0 ∨ i = 1 := by omega
    rcases hi2 with h | h
    · rw [h] at hx ⊢
      have hx' : F64.lit 1 = x := Option.some.inj hx
      refine ⟨{ re := (FP.ofInt 4 : F32).add (FP.ofInt (-2)), im := p.im.add q.im }, rfl, ?_, ?_⟩
      · dsimp only; rw [pair_k1]; decide +kernel
      · dsimp only; rw [pair_k1, ← hx', lit_val' (by decide), (val_eq_int (by decide)).2 pair_v1]; norm_num
    · rw [h] at hx ⊢
      have hx' : F64.lit 3 = x := Option.some.inj hx
      refine ⟨{ re := (FP.ofInt 4 : F32).add (FP.ofInt (-2) : F32).neg, im := p.im.add q.im.neg }, rfl, ?_, ?_⟩
      · dsimp only; rw [pair_k2]; decide +kernel
      · dsimp only; rw [pair_k2, ← hx', lit_val' (by decide), (val_eq_int (by decide)).2 pair_v3]; norm_num

def twoFreqs : Fft := { Fft.new (F64.lit 1) (F64.lit 10) with
  frequencies := [{ pos := 5, re := FP.ofInt 2, im := FP.ofInt 1 }, { pos := 0, re := FP.ofInt 9, im := FP.zero }] }

/-- A frame with two frequencies satisfying the hypotheses of `C64_decoder_spectrum`. -/
example : unwrapDec Fft.dec twoFreqs.enc = .ok twoFreqs ∧ twoFreqs.minValue.lt twoFreqs.maxValue = true ∧ (twoFreqs.frequencies.map (·.pos)).Nodup ∧
    (∀ f ∈ twoFreqs.frequencies, f.pos ≤ 10 / 2) ∧ TransformLength 10 10 0 :=
  ⟨(fft_unwrap twoFreqs ⟨by decide +kernel, by decide +kernel⟩).trans (by unfold twoFreqs Fft.new; with_reducible rfl), by decide +kernel, by decide +kernel, by decide +kernel,
    Or.inl ⟨by decide, rfl, rfl⟩⟩

/-- The frame `bs` of a chunk of `n` samples decodes through one inverse transform of length `N`: of the stored bins, their mirror images and zeros. -/
def DecodesAtLength (E : Ext) (n : Nat) (bs : Bytes) (N : Nat) : Prop :=
  ∃ c sp out, unwrapDec Fft.dec bs = .ok c ∧ MirrorSpectrum c.frequencies N sp ∧ Compressor.fft.decompress E n bs = .ok out ∧ out.length = n ∧
    ∀ i (hi : i < out.length), ∃ z, (E.fftInv sp)[(N - n) / 2 + i]? = some z ∧
      RoundedWithin (FP.cvt c.minValue) (FP.cvt c.maxValue) (FP.cvt (z.re.div (FP.ofInt N))) out[i]

theorem plain_decodes_at (E : Ext) (hE : E.Lawful) (data : List F64) (hlen : data.length ≤ 131071) (hn : ∀ y ∈ data, y.isNaN = false)
    (a b : F64) (ha : a ∈ data) (hb : b ∈ data) (hab : (FP.cvt a : F32).lt (FP.cvt b : F32) = true) (N pre : Nat)
    (hN : TransformLength data.length N pre) :
    ∃ bs, Compressor.fft.compress E data = .ok bs ∧ StoresBins (E.spectrum data) bs ∧ DecodesAtLength E data.length bs N := by
  have hne : data ≠ [] := by rintro rfl; simp at ha
  have h1 : 1 ≤ data.length := List.length_pos_of_ne_nil hne
  obtain ⟨st, hst⟩ := stats_ok hne
  have hc := fft_nonconst hn hst ha hb hab
  obtain ⟨c, h2, ⟨h, _⟩ | ⟨_, fs, h4, rfl⟩⟩ := fft_plain_cases E hE data hne st hst
  · rw [hc] at h; exact absurd h (by decide)
  have hk : baselinePoints data.length ≠ 1 := by unfold baselinePoints; split_ifs <;> omega
  have hhl := fftHalf_length hE h1
  obtain ⟨k1, k2⟩ := fft_frame_freqs hE hk h4 (c0 := Fft.start st) (by omega)
  have hst' := fftTrim_stores hE hk hlen h4
  have hge : data.length ≤ N := by
    rcases hN with ⟨_, rfl, _⟩ | ⟨_, h, _⟩
    · exact le_refl _
    · exact h.1.1.le
  have hpre : pre = (N - data.length) / 2 := by
    rcases hN with ⟨_, rfl, rfl⟩ | ⟨_, _, h⟩
    · omega
    · exact h
  have hlt : (Fft.start st).minValue.lt (Fft.start st).maxValue = true := by
    obtain ⟨_, _, hrange⟩ := stats_range hne hn hst
    have k1 := le_iff.1 (cvt_mono (mb' := 23) (eb' := 8) infMag64_pos (hrange a ha).1)
    have k2 := le_iff.1 (cvt_mono (mb' := 23) (eb' := 8) infMag64_pos (hrange b hb).2)
    have k3 := lt_iff.1 hab
    have e1 : (Fft.start st).minValue = FP.cvt st.min := rfl
    have e2 : (Fft.start st).maxValue = FP.cvt st.max := rfl
    rw [e1, e2]
    exact lt_iff.2 ⟨k1.1, k2.2.1, by omega⟩
  refine ⟨_, h2, ⟨_, fft_unwrap _ k1, hst'⟩, ?_⟩
  obtain ⟨sp, out, o1, o2, o3, o4⟩ := C64_decoder_spectrum E hE data.length N pre h1 hN _ _ (fft_unwrap _ k1) hlt hst'.1
    (fun f hf => by have := k2 f hf; omega)
  rw [hpre] at o4
  exact ⟨_, sp, out, fft_unwrap _ k1, o1, o2, o3, o4⟩

/-- C66 holds below 128 samples: plain compression stores bins of the chunk's spectrum, and the decoder inverts a spectrum of the same length. -/
theorem C66_plain_length (E : Ext) (hE : E.Lawful) (data : List F64) (hlen : data.length < 128) (hn : ∀ y ∈ data, y.isNaN = false)
    (a b : F64) (ha : a ∈ data) (hb : b ∈ data) (hab : (FP.cvt a : F32).lt (FP.cvt b : F32) = true) :
    ∃ bs, Compressor.fft.compress E data = .ok bs ∧ StoresBins (E.spectrum data) bs ∧ DecodesAtLength E data.length bs (E.spectrum data).length := by
  have hsl : (E.spectrum data).length = data.length := by unfold Ext.spectrum; rw [hE.fwd_len, List.length_map]
  rw [hsl]
  exact plain_decodes_at E hE data (by omega) hn a b ha hb hab _ 0 (Or.inl ⟨hlen, rfl, rfl⟩)

/-- C66 fails from 128 samples on: the stored bins are those of a transform of the chunk's own length, but the decoder places them in a longer spectrum,
inverts that one and keeps its middle. -/
theorem C66_refuted_long (E : Ext) (hE : E.Lawful) (data : List F64) (hlen : 128 ≤ data.length) (hlen2 : data.length ≤ 131071)
    (hn : ∀ y ∈ data, y.isNaN = false)
    (a b : F64) (ha : a ∈ data) (hb : b ∈ data) (hab : (FP.cvt a : F32).lt (FP.cvt b : F32) = true) :
    ∃ bs N, Compressor.fft.compress E data = .ok bs ∧ StoresBins (E.spectrum data) bs ∧ (E.spectrum data).length < N ∧
      DecodesAtLength E data.length bs N := by
  have hsl : (E.spectrum data).length = data.length := by unfold Ext.spectrum; rw [hE.fwd_len, List.length_map]
  rw [hsl]
  have hl := C33_next_size data.length
  obtain ⟨bs, h1, h2, h3⟩ := plain_decodes_at E hE data hlen2 hn a b ha hb hab (nextSize data.length) _ (Or.inr ⟨hlen, hl, rfl⟩)
  exact ⟨bs, _, h1, h2, hl.1.1, h3⟩

/-- 127 samples of 1 and a 3: 128 samples that are not constant. -/
example : (F64.lit 1 :: List.replicate 126 (F64.lit 1) ++ [F64.lit 3]).length = 128 ∧
    (FP.cvt (F64.lit 1) : F32).lt (FP.cvt (F64.lit 3) : F32) = true := ⟨by simp, by decide +kernel⟩

end Atsc
