import Verif.Lemmas.Stream
import Verif.Lemmas.Poly
import Verif.Lemmas.FloatMono
import Verif.Props.Utils
import Verif.Model.Fft
import Verif.Lemmas.Heap
/- Lemmas about the FFT compressor. -/
namespace Atsc
open FP

/-! ### The heap of frequencies -/

/-- Every frequency comes out of the heap exactly once, whatever the norms are. -/
theorem Ext.pops_perm (E : Ext) (l : List FreqPoint) : (E.heapPops l).Perm l := Heap.pops_perm _ l

theorem freqCmp_le {norm : C32 → F32} {a b : FreqPoint} (ha : (norm a.toComplex).isNaN = false) (hb : (norm b.toComplex).isNaN = false) :
    Heap.le (freqCmp norm) a b = true ↔ (norm a.toComplex).scaled ≤ (norm b.toComplex).scaled := by
  unfold Heap.le freqCmp
  by_cases h1 : (norm a.toComplex).feq (norm b.toComplex) = true
  · rw [if_pos h1]
    have := (feq_iff.1 h1).2.2
    simp only [bne_iff_ne, ne_eq, reduceCtorEq, not_false_eq_true, true_iff]
    omega
  · rw [if_neg h1]
    rw [feq_iff] at h1
    by_cases h2 : (norm b.toComplex).lt (norm a.toComplex) = true
    · rw [if_pos h2]
      have := (lt_iff.1 h2).2.2
      simp; omega
    · rw [if_neg h2]
      rw [lt_iff] at h2
      simp only [ha, hb, true_and] at h1 h2
      simp only [bne_iff_ne, ne_eq, reduceCtorEq, not_false_eq_true, true_iff]
      omega

theorem freqCmp_good (norm : C32 → F32) : Heap.Good (freqCmp norm) fun f => (norm f.toComplex).isNaN = false where
  total := by
    intro a b ha hb h
    rw [freqCmp_le hb ha]
    rw [Bool.eq_false_iff, Ne, freqCmp_le ha hb] at h
    omega
  trans := by
    intro a b c ha hb hc h1 h2
    rw [freqCmp_le ha hb] at h1
    rw [freqCmp_le hb hc] at h2
    rw [freqCmp_le ha hc]
    omega
  ge_le := by
    intro a b ha hb
    rw [Bool.eq_iff_iff, freqCmp_le hb ha]
    unfold Heap.ge freqCmp
    by_cases h1 : (norm a.toComplex).feq (norm b.toComplex) = true
    · rw [if_pos h1]
      have := (feq_iff.1 h1).2.2
      simp only [bne_iff_ne, ne_eq, reduceCtorEq, not_false_eq_true, true_iff]
      omega
    · rw [if_neg h1]
      rw [feq_iff] at h1
      by_cases h2 : (norm b.toComplex).lt (norm a.toComplex) = true
      · rw [if_pos h2]
        have := (lt_iff.1 h2).2.2
        simp only [bne_iff_ne, ne_eq, reduceCtorEq, not_false_eq_true, true_iff]
        omega
      · rw [if_neg h2]
        rw [lt_iff] at h2
        simp only [ha, hb, true_and] at h1 h2
        simp; omega
  lt_le := by
    intro a b ha hb
    rw [Bool.eq_iff_iff, Bool.not_eq_true', Bool.eq_false_iff, Ne, freqCmp_le hb ha]
    unfold Heap.lt freqCmp
    by_cases h1 : (norm a.toComplex).feq (norm b.toComplex) = true
    · rw [if_pos h1]
      have := (feq_iff.1 h1).2.2
      simp; omega
    · rw [if_neg h1]
      rw [feq_iff] at h1
      by_cases h2 : (norm b.toComplex).lt (norm a.toComplex) = true
      · rw [if_pos h2]
        have := (lt_iff.1 h2).2.2
        simp; omega
      · rw [if_neg h2]
        rw [lt_iff] at h2
        simp only [ha, hb, true_and] at h1 h2
        simp; omega

/-- Frequencies whose norms are numbers come out of the heap largest first. -/
theorem Ext.pops_sorted (E : Ext) (l : List FreqPoint) (hn : ∀ f ∈ l, (E.norm f.toComplex).isNaN = false) :
    (E.heapPops l).Pairwise fun a b => (E.norm a.toComplex).lt (E.norm b.toComplex) = false := by
  have h := Heap.pops_sorted (freqCmp_good E.norm) l hn
  refine h.imp_of_mem fun {a b} ha hb hab => ?_
  have ha' := hn a ((E.pops_perm l).mem_iff.1 ha)
  have hb' := hn b ((E.pops_perm l).mem_iff.1 hb)
  rw [freqCmp_le hb' ha'] at hab
  rw [Bool.eq_false_iff, Ne, lt_iff]
  omega

/-! ### Casts between formats -/

theorem nan_isNaN64 : (FP.nan : F64).isNaN = true := by decide +kernel
theorem nan_isNaN32 : (FP.nan : F32).isNaN = true := by decide +kernel

section cvt
variable {mb eb mb' eb' : Nat}

theorem cvt_not_nan {a : FP mb eb} (h : a.isNaN = false) : (FP.cvt a : FP mb' eb').isNaN = false := by
  unfold FP.cvt; rw [h]
  simp only [Bool.false_eq_true, if_false]
  split_ifs
  · exact inf_isNaN _
  · exact ofRound_isNaN _ _ _

theorem cvt_sign {a : FP mb eb} (h : a.isNaN = false) : (FP.cvt a : FP mb' eb').sign = a.sign := by
  unfold FP.cvt; rw [h]
  simp only [Bool.false_eq_true, if_false]
  split_ifs <;> rfl

theorem mag_le_of_not_nan {x : FP mb eb} (h : x.isNaN = false) : x.mag.val ≤ infMag mb eb := by
  simpa [FP.isNaN] using h

theorem cvt_mag_mono {a b : FP mb eb} (ha : a.isNaN = false) (hb : b.isNaN = false) (h : a.mag.val ≤ b.mag.val) :
    (FP.cvt a : FP mb' eb').mag.val ≤ (FP.cvt b : FP mb' eb').mag.val := by
  by_cases hbi : b.isInf = true
  · have : (FP.cvt b : FP mb' eb').mag.val = infMag mb' eb' := by
      unfold FP.cvt; rw [hb, hbi]
      simp [FP.inf, ofPat]
    rw [this]
    exact mag_le_of_not_nan (cvt_not_nan ha)
  · have hbf : b.mag.val < infMag mb eb := by
      have h1 := mag_le_of_not_nan hb
      have h2 : b.mag.val ≠ infMag mb eb := by simpa [FP.isInf] using hbi
      omega
    have hai : a.isInf = false := by
      unfold FP.isInf; simp; omega
    rw [Bool.not_eq_true] at hbi
    unfold FP.cvt
    rw [ha, hb, hai, hbi]
    simp only [Bool.false_eq_true, if_false, ofRound, ofPat]
    have hq := qpow_pos mb eb
    have : roundPat mb' (a.absVal * 2 ^ qexp mb' eb') (2 ^ qexp mb eb) ≤ roundPat mb' (b.absVal * 2 ^ qexp mb' eb') (2 ^ qexp mb eb) := by
      apply roundPat_mono hq hq
      apply Nat.mul_le_mul_right
      apply Nat.mul_le_mul_right
      exact magVal_le_iff.2 h
    omega

theorem cvt_zero {a : FP mb eb} (ha : a.isNaN = false) (h : a.mag.val = 0) (hp : 0 < infMag mb eb) : (FP.cvt a : FP mb' eb').mag.val = 0 := by
  have hai : a.isInf = false := by unfold FP.isInf; simp; omega
  unfold FP.cvt
  rw [ha, hai]
  have : a.absVal = 0 := by unfold FP.absVal; rw [h]; simp
  rw [this, Nat.zero_mul]
  have := roundPat_exact mb' 0 (qpow_pos mb eb)
  simp only [magVal_zero, Nat.zero_mul] at this
  simp [ofRound, ofPat, this]

/-- Casting is monotone. -/
theorem cvt_mono (hp : 0 < infMag mb eb) {a b : FP mb eb} (h : a.le b = true) : (FP.cvt a : FP mb' eb').le (FP.cvt b : FP mb' eb') = true := by
  obtain ⟨ha, hb, hab⟩ := le_iff.1 h
  refine le_iff.2 ⟨cvt_not_nan ha, cvt_not_nan hb, ?_⟩
  have sa := cvt_sign (mb' := mb') (eb' := eb') ha
  have sb := cvt_sign (mb' := mb') (eb' := eb') hb
  unfold FP.scaled at hab ⊢
  rw [sa, sb]
  cases has : a.sign <;> cases hbs : b.sign <;> simp only [has, hbs, Bool.false_eq_true, if_false, if_true] at hab ⊢
  · have h1 : a.absVal ≤ b.absVal := by omega
    have := (magVal_le_iff (mb := mb')).2 (cvt_mag_mono (mb' := mb') (eb' := eb') ha hb (magVal_le_iff.1 h1))
    exact Int.ofNat_le.2 this
  · have h1 : a.absVal = 0 := by omega
    have h2 : b.absVal = 0 := by omega
    have e1 := cvt_zero (mb' := mb') (eb' := eb') ha (magVal_eq_zero.1 h1) hp
    have e2 := cvt_zero (mb' := mb') (eb' := eb') hb (magVal_eq_zero.1 h2) hp
    unfold FP.absVal; rw [e1, e2]; simp
  · omega
  · have h1 : b.absVal ≤ a.absVal := by omega
    have := (magVal_le_iff (mb := mb')).2 (cvt_mag_mono (mb' := mb') (eb' := eb') hb ha (magVal_le_iff.1 h1))
    have : (FP.cvt b : FP mb' eb').absVal ≤ (FP.cvt a : FP mb' eb').absVal := this
    omega

end cvt

/-! ### Codec -/

theorem rt_freq : RT (fun f : FreqPoint => f.pos < 2 ^ 16) FreqPoint.enc FreqPoint.dec := by
  intro f rest h
  unfold FreqPoint.enc FreqPoint.dec
  simp only [List.append_assoc]
  rw [Dec.bind_eq (rt_u16 _ _ h), Dec.bind_eq (rt_f32 _ _ trivial), Dec.bind_eq (rt_f32 _ _ trivial)]
  rfl

/-- Frequencies that can be written: positions below `2^16`, fewer than `2^64` of them. -/
def Fft.Ok (c : Fft) : Prop := c.frequencies.length < 2 ^ 64 ∧ ∀ f ∈ c.frequencies, f.pos < 2 ^ 16

theorem fft_dec_enc (c : Fft) (rest : Bytes) (h : c.Ok) : Fft.dec (c.enc ++ rest) = some ({ c with error := none }, rest) := by
  unfold Fft.dec Fft.enc
  simp only [List.append_assoc]
  rw [Dec.bind_eq (rt_u8 _ _ trivial), Dec.bind_eq (rt_vec rt_freq _ _ h), Dec.bind_eq (rt_f32 _ _ trivial),
    Dec.bind_eq (rt_f32 _ _ trivial)]
  rfl

theorem fft_unwrap (c : Fft) (h : c.Ok) : unwrapDec Fft.dec c.enc = .ok { c with error := none } := by
  have := fft_dec_enc c [] h
  rw [List.append_nil] at this
  unfold unwrapDec; rw [this]

/-! ### Spectrum -/

theorem fftHalf_length {E : Ext} (hE : E.Lawful) {data : List F64} (hn : 1 ≤ data.length) :
    (fftHalf E data).length = data.length / 2 + 1 := by
  unfold fftHalf
  simp only [List.length_take, hE.fwd_len, fftOptimize, List.length_map]
  omega

/-- `f` is a bin of the spectrum with its position cut to 16 bits. -/
def IsBin (half : List C32) (f : FreqPoint) : Prop := ∃ p, ∃ h : p < half.length, f = FreqPoint.of half[p] p

theorem fftTrim_ok {E : Ext} (hE : E.Lawful) {half : List C32} {m : Nat} (hm : m ≠ 1) :
    fftTrim E half m = .ok (((E.heapPops (half.mapIdx fun pos b => FreqPoint.of b pos)).take m).takeWhile
      fun f => !(f.im.feq FP.zero && f.re.feq FP.zero)) := by
  unfold fftTrim; rw [if_neg hm]

theorem fftTrim_bins {E : Ext} (hE : E.Lawful) {half : List C32} {m : Nat} (hm : m ≠ 1) {fs : List FreqPoint}
    (h : fftTrim E half m = .ok fs) : fs.length ≤ m ∧ fs.length ≤ half.length ∧ ∀ f ∈ fs, IsBin half f := by
  rw [fftTrim_ok hE hm] at h
  injection h with h; subst h
  set pts := half.mapIdx fun pos b => FreqPoint.of b pos with hpts
  have hl : (E.heapPops pts).length = half.length := by rw [(E.pops_perm pts).length_eq]; simp [hpts]
  have hsub := (List.takeWhile_sublist (fun f : FreqPoint => !(f.im.feq FP.zero && f.re.feq FP.zero)) (l := (E.heapPops pts).take m))
  have h1 := hsub.length_le
  rw [List.length_take, hl] at h1
  refine ⟨by omega, by omega, ?_⟩
  intro f hf
  have hf2 := List.mem_of_mem_take (hsub.subset hf)
  have hf3 := (E.pops_perm pts).mem_iff.1 hf2
  rw [hpts, List.mem_mapIdx] at hf3
  obtain ⟨p, hp, rfl⟩ := hf3
  exact ⟨p, hp, rfl⟩

theorem isBin_pos {half : List C32} {f : FreqPoint} (h : IsBin half f) : f.pos < half.length ∧ f.pos < 2 ^ 16 := by
  obtain ⟨p, hp, rfl⟩ := h
  simp only [FreqPoint.of]
  have := Nat.mod_le p 65536
  have := Nat.mod_lt p (show 0 < 65536 by omega)
  exact ⟨by omega, by omega⟩

theorem mirrorLoop_ok (len : Nat) : ∀ (fs : List FreqPoint) (data : List C32), data.length = len → (∀ f ∈ fs, f.pos < len) →
    ∃ out, mirrorLoop len fs data = .ok out ∧ out.length = len := by
  intro fs
  induction fs with
  | nil => intro data h _; exact ⟨data, rfl, h⟩
  | cons f fs ih =>
    intro data h hp
    have hf := hp f (by simp)
    unfold mirrorLoop
    have h1 : setAt data f.pos f.toComplex = .ok (data.set f.pos f.toComplex) := by
      unfold setAt; rw [if_pos (by omega)]
    rw [h1, ok_bind]
    split_ifs with h0
    · exact ih _ (by simp [h]) fun g hg => hp g (by simp [hg])
    · have h2 : setAt (data.set f.pos f.toComplex) (len - f.pos) f.toInvComplex =
          .ok ((data.set f.pos f.toComplex).set (len - f.pos) f.toInvComplex) := by
        unfold setAt; rw [if_pos (by simp; omega)]
      rw [h2, ok_bind]
      exact ih _ (by simp [h]) fun g hg => hp g (by simp [hg])

theorem getMirrored_ok (c : Fft) (len : Nat) (h : ∀ f ∈ c.frequencies, f.pos < len) :
    ∃ m, c.getMirrored len = .ok m ∧ m.length = len :=
  mirrorLoop_ok len _ _ (by simp) h

theorem reconstruct_ok {E : Ext} (hE : E.Lawful) (c : Fft) (len : Nat) (h : ∀ f ∈ c.frequencies, f.pos < len) :
    ∃ out, c.reconstruct E len = .ok out ∧ out.length = len ∧ ∀ y ∈ out, ∃ v, y = c.round v 5 := by
  obtain ⟨m, h1, h2⟩ := getMirrored_ok c len h
  unfold Fft.reconstruct
  rw [h1, ok_bind]
  refine ⟨_, rfl, by simp [hE.inv_len, h2], ?_⟩
  intro y hy
  obtain ⟨f, _, rfl⟩ := List.mem_map.1 hy
  exact ⟨_, rfl⟩

/-- The padding in front of a frame of `n` samples. -/
def padBefore (n : Nat) : Nat := if n ≥ 128 then (nextSize n - n) / 2 else 0
/-- The length of the transform for a frame of `n` samples. -/
def paddedLen (n : Nat) : Nat := if n ≥ 128 then nextSize n else n

theorem nextSize_gt (n : Nat) : n < nextSize n := (C33_next_size n).1.1

theorem paddedLen_ge (n : Nat) : n ≤ paddedLen n := by
  unfold paddedLen; split_ifs
  · exact (nextSize_gt n).le
  · exact le_refl _

theorem gibbsData_length {data : List F64} (hn : 1 ≤ data.length) : (gibbsData data).length = paddedLen data.length := by
  unfold gibbsData paddedLen
  split_ifs with h
  · have := nextSize_gt data.length
    unfold gibbsSizing
    obtain ⟨x, r, rfl⟩ := List.exists_cons_of_ne_nil (List.ne_nil_of_length_pos hn)
    rw [List.head?_cons, List.getLast?_eq_some_getLast (by simp)]
    simp only [List.length_append, List.length_replicate]
    generalize hN : nextSize (x :: r).length = N at *
    omega
  · rfl

theorem gibbsData_window {data : List F64} (hn : 1 ≤ data.length) :
    ((gibbsData data).drop (padBefore data.length)).take data.length = data := by
  unfold gibbsData padBefore
  split_ifs with h
  · unfold gibbsSizing
    obtain ⟨x, r, rfl⟩ := List.exists_cons_of_ne_nil (List.ne_nil_of_length_pos hn)
    rw [List.head?_cons, List.getLast?_eq_some_getLast (by simp)]
    simp only [List.append_assoc]
    rw [List.drop_left' (by simp), List.take_left' rfl]
  · simp

/-- The decoder runs the inverse transform at the padded length and keeps the window of the original samples. -/
theorem toData_window (E : Ext) (hE : E.Lawful) (c : Fft) (n : Nat) (hc : c.maxValue.feq c.minValue = false) :
    c.toData E n = (c.reconstruct E (paddedLen n)) >>= fun out => .ok ((out.drop (padBefore n)).take n) := by
  have hN := nextSize_gt n
  unfold Fft.toData Fft.reconstruct
  rw [hc]
  simp only [Bool.false_eq_true, if_false]
  have hsize : n + (if n ≥ 128 then nextSize n - n else 0) / 2 +
      ((if n ≥ 128 then nextSize n - n else 0) - (if n ≥ 128 then nextSize n - n else 0) / 2) = paddedLen n := by
    unfold paddedLen; split_ifs <;> omega
  have hpre : (if n ≥ 128 then nextSize n - n else 0) / 2 = padBefore n := by
    unfold padBefore; split_ifs <;> omega
  rw [hsize, hpre]
  have hle : padBefore n + n ≤ paddedLen n := by unfold padBefore paddedLen; split_ifs <;> omega
  cases hm : c.getMirrored (paddedLen n) with
  | error e => rfl
  | ok m =>
    have hml : m.length = paddedLen n := by
      have aux : ∀ (fs : List FreqPoint) (d out : List C32), mirrorLoop (paddedLen n) fs d = .ok out → out.length = d.length := by
        intro fs
        induction fs with
        | nil => intro d out h; injection h with h; rw [h]
        | cons f fs ih =>
          intro d out h
          unfold mirrorLoop at h
          obtain ⟨d1, e1, h⟩ := bind_ok_iff.1 h
          have l1 : d1.length = d.length := by
            unfold setAt at e1; split_ifs at e1; injection e1 with e1; rw [← e1]; simp
          split_ifs at h
          · rw [ih _ _ h, l1]
          · obtain ⟨d2, e2, h⟩ := bind_ok_iff.1 h
            have l2 : d2.length = d1.length := by
              unfold setAt at e2; split_ifs at e2; injection e2 with e2; rw [← e2]; simp
            rw [ih _ _ h, l2, l1]
      rw [aux _ _ _ hm]; simp
    rw [ok_bind, ok_bind, ok_bind]
    congr 1
    rw [← List.map_drop, ← List.map_take]
    congr 2
    rw [hE.inv_len, hml]
    have : (if n ≥ 128 then nextSize n - n else 0) - padBefore n = paddedLen n - n - padBefore n := by
      unfold padBefore paddedLen; split_ifs <;> omega
    rw [this]
    omega

/-! ### Rounding -/

theorem fftRound_eq (c : Fft) (x : F32) (d : Nat) : c.round x d =
    if (FP.cvt c.maxValue : F64).lt (roundF64 (FP.cvt x) d) then FP.cvt c.maxValue
    else if (roundF64 (FP.cvt x) d).lt (FP.cvt c.minValue) then FP.cvt c.minValue else roundF64 (FP.cvt x) d := rfl

theorem fftRound_range (c : Fft) (x : F32) (h : (FP.cvt c.minValue : F64).le (FP.cvt c.maxValue) = true) :
    (c.round x 5).isNaN = false → (FP.cvt c.minValue : F64).le (c.round x 5) = true ∧ (c.round x 5).le (FP.cvt c.maxValue) = true := by
  obtain ⟨hn1, hn2, hle⟩ := le_iff.1 h
  rw [fftRound_eq]
  split_ifs with h1 h2
  · intro _; exact ⟨h, le_iff.2 ⟨hn2, hn2, le_refl _⟩⟩
  · intro _; exact ⟨le_iff.2 ⟨hn1, hn1, le_refl _⟩, h⟩
  · intro hn
    exact ⟨le_of_not_lt hn hn1 h2, le_of_not_lt hn2 hn h1⟩

/-! ### The search -/

/-- Frequencies added to the base count `m` before round `it + 1` (fft.rs:348-352). -/
def fftJump (m it : Nat) : Nat := min it 17 * Nat.max (m / 2) 1 + (it - 17) * Nat.max (m / 10) 1

/-- What is known after at least one round, with base count `m`. -/
def FftRound (E : Ext) (c0 : Fft) (g : List F64) (half : List C32) (m : Nat) (s : FftLoop) : Prop :=
  (∃ fs, fftTrim E half (m + fftJump m (s.iterations - 1)) = .ok fs ∧ s.c = { c0 with frequencies := fs }) ∧
    ∃ out, s.c.reconstruct E g.length = .ok out ∧ calculateError g out = .ok s.err

theorem fft_step (E : Ext) (hE : E.Lawful) (c0 : Fft) (g : List F64) (half : List C32) (hh : half.length ≤ g.length) (m : Nat) (hm : 3 ≤ m)
    (s : FftLoop) (hs : ∃ fs, s.c = { c0 with frequencies := fs }) (hi : s.iterations ≤ 22) (hj : s.jump = fftJump m s.iterations) :
    (∃ s', s.iterations ≤ 21 ∧ Fft.step E g half m s = .ok (.cont s') ∧ s'.iterations = s.iterations + 1 ∧
      s'.jump = fftJump m s'.iterations ∧ FftRound E c0 g half m s') ∨
    (∃ s', 22 ≤ s.iterations ∧ Fft.step E g half m s = .ok (.brk s') ∧ s'.iterations = s.iterations + 1 ∧ FftRound E c0 g half m s') := by
  have hm1 : m + s.jump ≠ 1 := by omega
  have htr := fftTrim_ok hE (half := half) hm1
  set fs := ((E.heapPops (half.mapIdx fun pos b => FreqPoint.of b pos)).take (m + s.jump)).takeWhile
      fun f => !(f.im.feq FP.zero && f.re.feq FP.zero)
  obtain ⟨_, _, hb⟩ := fftTrim_bins hE hm1 htr
  obtain ⟨fs0, hs⟩ := hs
  have hcc : ({ s.c with frequencies := fs } : Fft) = { c0 with frequencies := fs } := by rw [hs]
  obtain ⟨out, ho, hol, _⟩ := reconstruct_ok hE ({ c0 with frequencies := fs } : Fft) g.length fun f hf =>
    lt_of_lt_of_le (isBin_pos (hb f hf)).1 hh
  obtain ⟨e, he⟩ := calculateError_ok (a := g) (b := out) hol.symm
  have htr' : fftTrim E half (m + fftJump m (s.iterations + 1 - 1)) = .ok fs := by
    rw [Nat.add_sub_cancel, ← hj]; exact htr
  unfold Fft.step
  simp only [htr, ok_bind, hcc, ho, he]
  by_cases h22 : s.iterations + 1 ≤ 22
  · rw [if_pos h22]
    left
    refine ⟨_, by omega, rfl, rfl, ?_, ⟨fs, htr', rfl⟩, out, ho, he⟩
    simp only [hj]
    generalize hA : Nat.max (m / 2) 1 = A
    generalize hB : Nat.max (m / 10) 1 = B
    unfold fftJump
    rw [hA, hB]
    by_cases h17 : s.iterations + 1 ≤ 17
    · rw [if_pos h17, Nat.min_eq_left (by omega), Nat.min_eq_left h17, show s.iterations - 17 = 0 by omega,
        show s.iterations + 1 - 17 = 0 by omega, Nat.zero_mul, Nat.add_mul]
      omega
    · rw [if_neg h17, Nat.min_eq_right (by omega), Nat.min_eq_right (by omega),
        show s.iterations + 1 - 17 = (s.iterations - 17) + 1 by omega, Nat.add_mul]
      omega
  · rw [if_neg h22]
    right
    exact ⟨_, by omega, rfl, rfl, ⟨fs, htr', rfl⟩, out, ho, he⟩

theorem fft_loop (E : Ext) (hE : E.Lawful) (c0 : Fft) (g : List F64) (half : List C32) (hh : half.length ≤ g.length) (m : Nat) (hm : 3 ≤ m)
    (maxErr : F64) : ∀ (fuel : Nat) (s : FftLoop), s.iterations ≤ 22 → 23 ≤ fuel + s.iterations → s.jump = fftJump m s.iterations →
      ((1 ≤ s.iterations ∧ FftRound E c0 g half m s) ∨ (s.c = c0 ∧ milli maxErr < milli s.err)) →
      ∃ s', Fft.loop E g half m maxErr fuel s = .ok s' ∧ FftRound E c0 g half m s' ∧ 1 ≤ s'.iterations ∧
        (s'.iterations ≤ 22 ∧ milli s'.err ≤ milli maxErr ∨ s'.iterations = 23) := by
  intro fuel
  induction fuel with
  | zero => intro s h1 h2; omega
  | succ f ih =>
    intro s h1 h2 hj h3
    have hs : ∃ fs, s.c = { c0 with frequencies := fs } := by
      rcases h3 with ⟨_, ⟨fs, _, h⟩, _⟩ | ⟨h, _⟩
      · exact ⟨fs, h⟩
      · exact ⟨c0.frequencies, h⟩
    unfold Fft.loop
    by_cases hcond : milli maxErr < milli s.err
    · rw [if_pos hcond]
      simp only
      rcases fft_step E hE c0 g half hh m hm s hs h1 hj with ⟨s', hi, e1, e2, e3, e4⟩ | ⟨s', hi, e1, e2, e3⟩
      · rw [e1, ok_bind]
        exact ih s' (by omega) (by omega) e3 (Or.inl ⟨by omega, e4⟩)
      · rw [e1, ok_bind]
        exact ⟨s', rfl, e3, by omega, Or.inr (by omega)⟩
    · rw [if_neg hcond]
      rcases h3 with ⟨h3, h4⟩ | ⟨_, h3⟩
      · exact ⟨s, rfl, h4, h3, Or.inl ⟨h1, by omega⟩⟩
      · exact absurd h3 hcond

/-! ### Extremes -/

theorem minMax_fold : ∀ (l : List F64) (a : StatsAcc) (p : F64 × F64), a.min = p.1 → a.max = p.2 →
    (l.foldl StatsAcc.step a).min = (l.foldl (fun p e => (if e.lt p.1 then e else p.1, if p.2.lt e then e else p.2)) p).1 ∧
    (l.foldl StatsAcc.step a).max = (l.foldl (fun p e => (if e.lt p.1 then e else p.1, if p.2.lt e then e else p.2)) p).2 := by
  intro l
  induction l with
  | nil => intro a p h1 h2; exact ⟨h1, h2⟩
  | cons x l ih =>
    intro a p h1 h2
    simp only [List.foldl_cons]
    apply ih
    · simp only [StatsAcc.step, h1]
    · simp only [StatsAcc.step, h2]

theorem minMax_stats {d0 : F64} {r : List F64} {st : DataStats} (h : DataStats.new (d0 :: r) = .ok st) :
    minMax d0 (d0 :: r) = (st.min, st.max) := by
  unfold DataStats.new at h
  simp only at h
  injection h with h
  have := minMax_fold (d0 :: r) { i := 0, min := d0, minLoc := 0, max := d0, maxLoc := 0, fractional := false, sum := FP.zero } (d0, d0) rfl rfl
  rw [← h]
  unfold minMax
  exact Prod.ext this.1.symm this.2.symm

end Atsc
