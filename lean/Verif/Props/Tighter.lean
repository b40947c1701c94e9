import Verif.Props.Poly
import Verif.Props.Fft
import Verif.Props.Sizes
import Verif.Lemmas.SumErr
import Verif.Props.Interp
/- C79: a larger allowed error does not make the payload larger. -/
namespace Atsc
open FP

/-- Finite bounds `0 ≤ e ≤ e' ≤ 1000000`. -/
structure Looser (e e' : F64) : Prop where
  fin : e.isFinite = true
  fin' : e'.isFinite = true
  nonneg : 0 ≤ e.val
  le : e.val ≤ e'.val
  bound : e'.val ≤ 1000000

/-! ### Comparing bounds -/

theorem mag_le_of_val {a b : F64} (h0 : 0 ≤ a.val) (h : a.val ≤ b.val) : a.mag.val ≤ b.mag.val := by
  have h1 := (val_le_iff (by decide : 2 ≤ 11)).1 h
  have h2 : (0 : Int) ≤ a.scaled := by
    have hz : (FP.zero : F64).val = 0 := (zero_val).1
    have := (val_le_iff (by decide : 2 ≤ 11) (x := (FP.zero : F64)) (y := a)).1 (by rw [hz]; exact h0)
    have hz' : (FP.zero : F64).scaled = 0 := by decide +kernel
    omega
  have h3 : a.absVal ≤ b.absVal := by
    rw [← scaled_natAbs, ← scaled_natAbs]; omega
  exact magVal_le_iff.1 h3

theorem truncInt_nonneg_mono {a b : F64} (hb : b.sign = false) (h : a.mag.val ≤ b.mag.val) : a.truncInt ≤ b.truncInt := by
  have h1 := absVal_le_of_mag h
  unfold truncInt
  rw [hb, if_neg Bool.false_ne_true]
  have h2 : a.absVal / 2 ^ qexp 52 11 ≤ b.absVal / 2 ^ qexp 52 11 := Nat.div_le_div_right h1
  generalize a.absVal / 2 ^ qexp 52 11 = A at *
  generalize b.absVal / 2 ^ qexp 52 11 = B at *
  split_ifs <;> omega

theorem milli_mono {e e' : F64} (h : Looser e e') : milli e ≤ milli e' := by
  obtain ⟨l1, l2⟩ := lit1000
  have hm := mag_le_of_val h.nonneg h.le
  have hb : |e.val| ≤ 2097153 := by rw [abs_of_nonneg h.nonneg]; linarith [h.le, h.bound]
  have hb' : |e'.val| ≤ 2097153 := by rw [abs_of_nonneg (le_trans h.nonneg h.le)]; linarith [h.bound]
  obtain ⟨p1, -⟩ := mul1000_err h.fin hb
  obtain ⟨q1, -⟩ := mul1000_err h.fin' hb'
  rw [milli_eq (isFinite_not_nan p1), milli_eq (isFinite_not_nan q1)]
  have l0 : (F64.lit 1000).absVal ≠ 0 := absVal_ne_zero_iff.2 (by rw [l1]; norm_num)
  have hmm := mul_mag_mono (isFinite_not_nan h.fin) (isFinite_not_nan h.fin') l2 l0 hm
  have : (e.mul (F64.lit 1000)).truncInt ≤ (e'.mul (F64.lit 1000)).truncInt := by
    by_cases hs : e'.sign = false
    · exact truncInt_nonneg_mono (mul_sign_pos hs (lit_sign (n := 1000)) (isFinite_not_nan q1)) hmm
    · -- `e'` is `-0`, so both are zero
      have hz : e'.val = 0 := by
        have h0 := le_trans h.nonneg h.le
        rw [val_sgn (by decide), Bool.not_eq_false _ |>.mp hs] at h0 ⊢
        have h1 : (0 : ℚ) ≤ (e'.absVal : ℚ) / 2 ^ qexp 52 11 := div_nonneg (Nat.cast_nonneg _) (qpow_posQ 52 11).le
        have h2 : sgn true = -1 := rfl
        rw [h2] at h0 ⊢
        generalize (e'.absVal : ℚ) / 2 ^ qexp 52 11 = A at *
        linarith
      have hm0 : e'.mag.val = 0 := by
        have : e'.absVal = 0 := by by_contra hc; exact absVal_ne_zero_iff.1 hc hz
        exact magVal_eq_zero.1 this
      have ha : e.absVal = 0 := by unfold absVal; rw [show e.mag.val = 0 by omega]; exact magVal_zero _
      have hb0 : e'.absVal = 0 := by unfold absVal; rw [hm0]; exact magVal_zero _
      have key : ∀ x : F64, x.isFinite = true → x.absVal = 0 → (x.mul (F64.lit 1000)).truncInt = 0 := by
        intro x hx h0
        unfold FP.mul
        rw [isFinite_not_nan hx, isFinite_not_nan l2, isFinite_not_inf hx, isFinite_not_inf l2, h0]
        simp only [Bool.or_self, Bool.false_eq_true, if_false, Nat.zero_mul]
        unfold ofRound
        rw [roundPat_zero (qpow_pos 52 11)]
        unfold truncInt absVal
        rw [ofPat_mag, Nat.zero_min, magVal_zero, Nat.zero_div]
        simp
      rw [key e h.fin ha, key e' h.fin' hb0]
  omega

/-! ### FFT -/

/-- The frequencies kept for a request of `k`. -/
def kept (E : Ext) (half : List C32) (k : Nat) : List FreqPoint :=
  ((E.heapPops (half.mapIdx fun pos b => FreqPoint.of b pos)).take k).takeWhile fun f => !(f.im.feq FP.zero && f.re.feq FP.zero)

theorem takeWhile_prefix_mono {α : Type} (p : α → Bool) : ∀ {l l' : List α}, l <+: l' → l.takeWhile p <+: l'.takeWhile p := by
  intro l
  induction l with
  | nil => intro l' _; simp
  | cons a l ih =>
    rintro l' ⟨t, rfl⟩
    rw [List.cons_append, List.takeWhile_cons, List.takeWhile_cons]
    cases p a
    · simp
    · simp only [if_true]
      exact (List.cons_prefix_cons).2 ⟨rfl, ih ⟨t, rfl⟩⟩

theorem kept_mono (E : Ext) (half : List C32) {k k' : Nat} (h : k ≤ k') : kept E half k <+: kept E half k' :=
  takeWhile_prefix_mono _ (List.take_prefix_take_left h)

/-- The frequencies of a loop state are the ones kept for a request not larger than the next one. -/
def Grown (E : Ext) (half : List C32) (m : Nat) (s : FftLoop) : Prop :=
  ∃ k, k ≤ m + s.jump ∧ s.c.frequencies = kept E half k

theorem fft_step_grown {E : Ext} {g : List F64} {half : List C32} {m : Nat} (hm : 3 ≤ m) {s : FftLoop} {r : LoopStep FftLoop}
    (h : Fft.step E g half m s = .ok r) : ∃ s', (r = .cont s' ∨ r = .brk s') ∧ s.jump ≤ s'.jump ∧ Grown E half m s' ∧
      (Grown E half m s → s.c.frequencies <+: s'.c.frequencies) := by
  unfold Fft.step at h
  have htr : fftTrim E half (m + s.jump) = .ok (kept E half (m + s.jump)) := by
    unfold fftTrim; rw [if_neg (by omega)]; rfl
  simp only [htr, ok_bind] at h
  obtain ⟨out, -, h⟩ := bind_ok_iff.1 h
  obtain ⟨err, -, h⟩ := bind_ok_iff.1 h
  by_cases h1 : s.iterations + 1 ≤ 22
  · rw [if_pos h1] at h
    obtain rfl := Except.ok.inj h
    refine ⟨_, Or.inl rfl, by simp, ⟨m + s.jump, by simp, rfl⟩, ?_⟩
    rintro ⟨k, hk, e⟩
    rw [e]; exact kept_mono E half hk
  · rw [if_neg h1] at h
    obtain rfl := Except.ok.inj h
    refine ⟨_, Or.inr rfl, ?_, ⟨m + s.jump, ?_, ?_⟩, ?_⟩
    · exact le_refl _
    · exact le_refl _
    · rfl
    · rintro ⟨k, hk, e⟩
      rw [e]; exact kept_mono E half hk

theorem fft_loop_grows {E : Ext} {g : List F64} {half : List C32} {m : Nat} (hm : 3 ≤ m) {e : F64} : ∀ (fuel : Nat) (s t : FftLoop),
    Grown E half m s → Fft.loop E g half m e fuel s = .ok t → s.c.frequencies <+: t.c.frequencies := by
  intro fuel
  induction fuel with
  | zero =>
    intro s t hs h
    unfold Fft.loop at h
    split_ifs at h
    obtain rfl := Except.ok.inj h; exact List.prefix_rfl
  | succ f ih =>
    intro s t hs h
    unfold Fft.loop at h
    split_ifs at h
    · simp only at h
      obtain ⟨r, hr, h⟩ := bind_ok_iff.1 h
      obtain ⟨s', hr', -, hg, hp⟩ := fft_step_grown hm hr
      rcases hr' with rfl | rfl
      · exact (hp hs).trans (ih s' t hg h)
      · obtain rfl := Except.ok.inj h; exact hp hs
    · obtain rfl := Except.ok.inj h; exact List.prefix_rfl

theorem fft_loops {E : Ext} {g : List F64} {half : List C32} {m : Nat} (hm : 3 ≤ m) {e e' : F64} (he : milli e ≤ milli e') : ∀ (fuel : Nat) (s t t' : FftLoop),
    Grown E half m s → Fft.loop E g half m e fuel s = .ok t → Fft.loop E g half m e' fuel s = .ok t' → t'.c.frequencies <+: t.c.frequencies := by
  intro fuel
  induction fuel with
  | zero =>
    intro s t t' hs h h'
    have h1 := fft_loop_grows hm 0 s t hs h
    unfold Fft.loop at h'
    split_ifs at h'
    obtain rfl := Except.ok.inj h'; exact h1
  | succ f ih =>
    intro s t t' hs h h'
    by_cases hc : milli e' < milli s.err
    · unfold Fft.loop at h h'
      rw [if_pos hc] at h'
      rw [if_pos (by omega)] at h
      simp only at h h'
      obtain ⟨r, hr, h⟩ := bind_ok_iff.1 h
      obtain ⟨r', hr', h'⟩ := bind_ok_iff.1 h'
      rw [hr] at hr'
      obtain rfl := Except.ok.inj hr'
      obtain ⟨s', hr', -, hg, hp⟩ := fft_step_grown hm hr
      rcases hr' with rfl | rfl
      · exact ih s' t t' hg h h'
      · obtain rfl := Except.ok.inj h; obtain rfl := Except.ok.inj h'; exact List.prefix_rfl
    · have h1 := fft_loop_grows hm _ s t hs h
      unfold Fft.loop at h'
      rw [if_neg hc] at h'
      obtain rfl := Except.ok.inj h'; exact h1

theorem encVar_mono {a b : Nat} (h : a ≤ b) : (encVar a).length ≤ (encVar b).length := by
  unfold encVar
  split_ifs <;> first | omega | simp [leBytes_length]

theorem encVec_prefix {α : Type} (enc : α → Bytes) {l l' : List α} (h : l <+: l') : (encVec enc l).length ≤ (encVec enc l').length := by
  obtain ⟨t, rfl⟩ := h
  unfold encVec
  have := encVar_mono (a := l.length) (b := (l ++ t).length) (by simp)
  rw [List.map_append, List.flatten_append]
  simp only [List.length_append] at this ⊢
  omega

theorem fft_enc_prefix {c c' : Fft} (h : c.frequencies <+: c'.frequencies) : c.enc.length ≤ c'.enc.length := by
  have := encVec_prefix FreqPoint.enc h
  unfold Fft.enc
  simp only [List.length_append, encU8_len]
  have f4 : ∀ x : F32, (encF32 x).length = 4 := fun x => by simp [encF32, leBytes_length]
  simp only [f4]
  omega

/-- One round, then the loop goes on from the same state whatever the bound. -/
theorem fft_first {E : Ext} {g : List F64} {half : List C32} {m : Nat} {e : F64} {f : Nat} {s t : FftLoop} (hent : milli e < milli s.err)
    (h : Fft.loop E g half m e (f + 1) s = .ok t) :
    (∃ s', Fft.step E g half m s = .ok (.brk s') ∧ t = s') ∨ ∃ s', Fft.step E g half m s = .ok (.cont s') ∧ Fft.loop E g half m e f s' = .ok t := by
  unfold Fft.loop at h
  rw [if_pos hent] at h
  simp only at h
  obtain ⟨r, hr, h⟩ := bind_ok_iff.1 h
  cases r with
  | brk s' => exact Or.inl ⟨s', hr, (Except.ok.inj h).symm⟩
  | cont s' => exact Or.inr ⟨s', hr, h⟩

theorem fft_step_err (E : Ext) (g : List F64) (half : List C32) (m : Nat) (c : Fft) (x y : F64) :
    Fft.step E g half m { c := c, err := x, jump := 0, iterations := 0 } = Fft.step E g half m { c := c, err := y, jump := 0, iterations := 0 } := rfl

/-- **C79**, FFT: with a larger allowed error the payload is never larger (the kept frequencies are a beginning of those kept for the smaller error). -/
theorem C79_fft (E : Ext) (hE : E.Lawful) (data : List F64) (hne : data ≠ []) (e e' : F64) (h : Looser e e') :
    ∃ r r', Compressor.fft.boundedResults E data e = .ok r ∧ Compressor.fft.boundedResults E data e' = .ok r' ∧ r'.data.length ≤ r.data.length := by
  obtain ⟨st, hst⟩ := stats_ok hne
  have hb : |e.val| ≤ 1000000 := by rw [abs_of_nonneg h.nonneg]; exact le_trans h.le h.bound
  have hb' : |e'.val| ≤ 1000000 := by rw [abs_of_nonneg (le_trans h.nonneg h.le)]; exact h.bound
  have hent := fft_entered h.fin hb
  have hent' := fft_entered h.fin' hb'
  have hmono := milli_mono h
  simp only [Compressor.boundedResults, hst, ok_bind]
  cases hc : (Fft.start st).maxValue.feq (Fft.start st).minValue with
  | true =>
    have : ∀ x, fftCompressor E data x st = .ok { data := (Fft.start st).enc, error := (Fft.start st).error.getD FP.zero } := by
      intro x
      have hcb : (Fft.new st.min st.max).compressBounded E data x = .ok (Fft.start st) := by
        unfold Fft.compressBounded; rw [if_pos (by exact hc)]; rfl
      unfold fftCompressor; rw [hcb]; rfl
    exact ⟨_, _, this e, this e', le_refl _⟩
  | false =>
    have hcb : ∀ x, fftCompressor E data x st = (Fft.loop E (gibbsData data) (fftHalf E (gibbsData data)) (baselinePoints data.length) x 23
        { c := Fft.start st, err := x.add (F64.lit 1), jump := 0, iterations := 0 } >>= fun s => .ok { data := s.c.enc, error := s.err }) := by
      intro x
      unfold fftCompressor Fft.compressBounded
      rw [if_neg (by show ¬ (Fft.start st).maxValue.feq (Fft.start st).minValue = true; rw [hc]; decide)]
      simp only [bind_assoc]
      rfl
    obtain ⟨-, r, h1, -⟩ := fft_core_cases E hE data hne e st
    obtain ⟨-, r', h1', -⟩ := fft_core_cases E hE data hne e' st
    refine ⟨r, r', h1, h1', ?_⟩
    rw [hcb] at h1 h1'
    obtain ⟨t, ht, hr⟩ := bind_ok_iff.1 h1
    obtain ⟨t', ht', hr'⟩ := bind_ok_iff.1 h1'
    obtain rfl := Except.ok.inj hr
    obtain rfl := Except.ok.inj hr'
    have hm : 3 ≤ baselinePoints data.length := by unfold baselinePoints; split_ifs <;> omega
    apply fft_enc_prefix
    clear hcb hb hb' h1 h1'
    generalize gibbsData data = g at ht ht'
    generalize fftHalf E g = half at ht ht'
    generalize baselinePoints data.length = m at ht ht' hm
    have hent0 : milli e < milli (FftLoop.mk (Fft.start st) (e.add (F64.lit 1)) 0 0).err := hent
    have hent0' : milli e' < milli (FftLoop.mk (Fft.start st) (e'.add (F64.lit 1)) 0 0).err := hent'
    rcases fft_first (f := 22) hent0 ht with ⟨s, hs, rfl⟩ | ⟨s, hs, hl⟩ <;> rcases fft_first (f := 22) hent0' ht' with ⟨s', hs', rfl⟩ | ⟨s', hs', hl'⟩ <;>
      rw [fft_step_err E _ _ _ _ _ (e.add (F64.lit 1)), hs] at hs'
    · cases Except.ok.inj hs'; exact List.prefix_rfl
    · exact nomatch (Except.ok.inj hs')
    · exact nomatch (Except.ok.inj hs')
    · cases Except.ok.inj hs'
      obtain ⟨s'', hr'', -, hg, -⟩ := fft_step_grown hm hs
      rcases hr'' with h2 | h2
      · cases h2
        exact fft_loops hm hmono 22 s t t' hg hl hl'
      · exact nomatch h2

/-! ### Polynomial and IDW -/

theorem positions_length {n step : Nat} (hn : 1 ≤ n) (hs : 1 ≤ step) :
    (positions n step).length = (n - 1) / step + 1 + (if step ∣ n - 1 then 0 else 1) := by
  have hk : (n + step - 1) / step = (n - 1) / step + 1 := by
    rw [show n + step - 1 = n - 1 + step by omega, Nat.add_div_right _ (by omega)]
  unfold positions
  simp only [hk, List.range_succ, List.map_append, List.map_cons, List.map_nil, List.getLast?_append, List.getLast?_singleton, Option.some_or]
  by_cases hd : step ∣ n - 1
  · rw [if_pos hd, if_neg (by rw [Nat.div_mul_cancel hd]; simp)]
    simp
  · rw [if_neg hd, if_pos (by
      intro hc
      exact hd ⟨(n - 1) / step, by rw [Nat.mul_comm]; exact (Option.some.inj hc).symm⟩)]
    simp

theorem positions_mono {n a b : Nat} (hn : 1 ≤ n) (ha : 1 ≤ a) (h : a ≤ b) : (positions n b).length ≤ (positions n a).length := by
  rw [positions_length hn ha, positions_length hn (by omega)]
  have h1 : (n - 1) / b ≤ (n - 1) / a := Nat.div_le_div_left h ha
  rcases Nat.lt_or_ge ((n - 1) / b) ((n - 1) / a) with h2 | h2
  · split_ifs <;> omega
  · have h3 : (n - 1) / b = (n - 1) / a := by omega
    by_cases hd : a ∣ n - 1
    · have e1 := Nat.div_mul_cancel hd
      have e2 := Nat.div_mul_le_self (n - 1) b
      have e3 : (n - 1) / a * a ≤ (n - 1) / a * b := Nat.mul_le_mul_left _ h
      have hb : b ∣ n - 1 := ⟨(n - 1) / b, by rw [Nat.mul_comm]; rw [h3] at e2 ⊢; omega⟩
      rw [if_pos hd, if_pos hb]; omega
    · rw [if_neg hd]; split_ifs <;> omega

theorem hintStep_mono {n k k' : Nat} (h1 : 1 ≤ k) (h : k ≤ k') : hintStep n k' ≤ hintStep n k := by
  unfold hintStep
  have := Nat.div_le_div_left (a := n) h h1
  exact max_le_max this (le_refl _)

/-- Samples stored in a loop state: those for a request not larger than the next one. -/
def PGrown (c0 : Poly) (data : List F64) (s : PolyLoop) : Prop :=
  ∃ k, 1 ≤ k ∧ k ≤ baselinePoints data.length + s.jump ∧ s.c = c0.stored data (hintStep data.length k)

theorem base_pos (n : Nat) : 1 ≤ baselinePoints n := by unfold baselinePoints; split_ifs <;> omega

theorem poly_step_form (E : Ext) (c0 : Poly) (data : List F64) (hc : c0.max.feq c0.min = false) (hn : 1 ≤ data.length) (s : PolyLoop)
    (hs : s.c = c0 ∨ ∃ k, s.c = c0.stored data k) :
    (∃ s', PGrown c0 data s' ∧ s'.c = c0.stored data (hintStep data.length (baselinePoints data.length + s.jump)) ∧ s.jump ≤ s'.jump ∧
      ((∀ t, Poly.step E data t s = .ok (.brk s')) ∨ ∀ t, Poly.step E data t s = .ok (.cont s'))) ∨
    (∃ e : F64, ∀ t, ∃ s', Poly.step E data t s = .ok (.brk s') ∧
      s'.c = if (roundF64 e 4).lt t = true then c0.stored data (hintStep data.length (baselinePoints data.length + s.jump)) else c0.stored data 1) := by
  have hb := base_pos data.length
  have hcomp : s.c.compressHinted data (baselinePoints data.length + s.jump) =
      .ok (c0.stored data (hintStep data.length (baselinePoints data.length + s.jump))) := by
    rcases hs with h | ⟨k, h⟩
    · rw [h]; exact hinted_ok c0 data _ hc (by omega) hn
    · rw [h, hinted_ok _ data _ (by exact hc) (by omega) hn]; rfl
  obtain ⟨hk1, hk2⟩ := hintStep_le (n := data.length) (points := baselinePoints data.length + s.jump) (by omega)
  have hstep0 : (c0.stored data (hintStep data.length (baselinePoints data.length + s.jump))).pointStep ≠ 0 := by
    show hintStep data.length (baselinePoints data.length + s.jump) % 256 ≠ 0
    rw [Nat.mod_eq_of_lt (by omega)]; omega
  obtain ⟨out, ho, hol, _⟩ := interpolate_ok E (c0.stored data (hintStep data.length (baselinePoints data.length + s.jump))) data.length hn hstep0
  obtain ⟨e, he⟩ := calculateError_ok (a := data) (b := out) hol.symm
  unfold Poly.step
  simp only [hcomp, ok_bind, ho, he]
  by_cases h22 : s.iterations + 1 ≤ 22
  · left
    by_cases hall : (c0.stored data (hintStep data.length (baselinePoints data.length + s.jump))).dataPoints.length = data.length
    · simp only [if_pos h22, if_pos hall]
      refine ⟨_, ⟨baselinePoints data.length + s.jump, ?_, ?_, ?_⟩, ?_, ?_, Or.inl fun t => rfl⟩
      · omega
      · simp
      · rfl
      · rfl
      · simp
    · simp only [if_pos h22, if_neg hall]
      refine ⟨_, ⟨baselinePoints data.length + s.jump, ?_, ?_, ?_⟩, ?_, ?_, Or.inr fun t => rfl⟩
      · omega
      · simp
      · rfl
      · rfl
      · simp
  · right
    refine ⟨e, fun t => ?_⟩
    rw [if_neg h22]
    by_cases hlt : (roundF64 e 4).lt t = true
    · rw [if_pos hlt]
      exact ⟨_, rfl, by rw [if_pos hlt]⟩
    · rw [if_neg hlt, hinted_ok _ data _ (by exact hc) hn hn, ok_bind, stored_stored, hintStep_self hn]
      exact ⟨_, rfl, by rw [if_neg hlt]⟩

/-- Number of samples stored. -/
def PolyLoop.count (s : PolyLoop) : Nat := s.c.dataPoints.length

theorem grown_stored {c0 : Poly} {data : List F64} {s : PolyLoop} (h : PGrown c0 data s) : s.c = c0 ∨ ∃ k, s.c = c0.stored data k := by
  obtain ⟨k, -, -, h⟩ := h; exact Or.inr ⟨_, h⟩

theorem count_mono {c0 : Poly} {data : List F64} (hn : 1 ≤ data.length) {k k' : Nat} (h1 : 1 ≤ k) (h : k ≤ k') :
    (c0.stored data (hintStep data.length k)).dataPoints.length ≤ (c0.stored data (hintStep data.length k')).dataPoints.length := by
  rw [stored_len, stored_len]
  refine positions_mono hn ?_ (hintStep_mono h1 h)
  unfold hintStep; exact le_max_right _ _

theorem count_all {c0 : Poly} {data : List F64} (hn : 1 ≤ data.length) {k : Nat} (h1 : 1 ≤ k) :
    (c0.stored data k).dataPoints.length ≤ (c0.stored data 1).dataPoints.length := by
  rw [stored_len, stored_len]
  exact positions_mono hn (le_refl _) h1

theorem hint_pos (n k : Nat) : 1 ≤ hintStep n k := by unfold hintStep; exact le_max_right _ _

theorem poly_loop_grows {E : Ext} {c0 : Poly} {data : List F64} (hc : c0.max.feq c0.min = false) (hn : 1 ≤ data.length) {t : F64} : ∀ (fuel : Nat)
    (s r : PolyLoop), PGrown c0 data s → Poly.loop E data t fuel s = .ok r → s.count ≤ r.count := by
  intro fuel
  induction fuel with
  | zero =>
    intro s r _ h
    unfold Poly.loop at h
    split_ifs at h
    obtain rfl := Except.ok.inj h; exact le_refl _
  | succ f ih =>
    intro s r hs h
    unfold Poly.loop at h
    split_ifs at h
    · simp only at h
      have hq := hs
      obtain ⟨k, k1, k2, k3⟩ := hq
      rcases poly_step_form E c0 data hc hn s (grown_stored hs) with ⟨s', g, hc', -, hst⟩ | ⟨e, hst⟩
      · have hle : s.count ≤ s'.count := by
          unfold PolyLoop.count; rw [k3, hc']; exact count_mono hn k1 k2
        rcases hst with hst | hst
        · rw [hst t] at h
          obtain rfl := Except.ok.inj h; exact hle
        · rw [hst t] at h
          exact le_trans hle (ih s' r g h)
      · obtain ⟨s', hst, hc'⟩ := hst t
        rw [hst] at h
        obtain rfl := Except.ok.inj h
        unfold PolyLoop.count
        rw [k3, hc']
        split_ifs
        · exact count_mono hn k1 k2
        · exact count_all hn (hint_pos _ _)
    · obtain rfl := Except.ok.inj h; exact le_refl _

theorem poly_loops {E : Ext} {c0 : Poly} {data : List F64} (hc : c0.max.feq c0.min = false) (hn : 1 ≤ data.length) {t t' : F64}
    (ht : t.le t' = true) : ∀ (fuel : Nat) (s r r' : PolyLoop), (PGrown c0 data s ∨ s.c = c0 ∧ t.lt (roundF64 s.err 4) = true ∧ t'.lt (roundF64 s.err 4) = true) →
      Poly.loop E data t fuel s = .ok r → Poly.loop E data t' fuel s = .ok r' → r'.count ≤ r.count := by
  obtain ⟨n1, n2, hle⟩ := le_iff.1 ht
  intro fuel
  induction fuel with
  | zero =>
    intro s r r' hs h h'
    unfold Poly.loop at h h'
    split_ifs at h h'
    obtain rfl := Except.ok.inj h; obtain rfl := Except.ok.inj h'; exact le_refl _
  | succ f ih =>
    intro s r r' hs h h'
    by_cases hcond : t'.lt (roundF64 s.err 4) = true
    · have hcond2 : t.lt (roundF64 s.err 4) = true := by
        obtain ⟨p1, p2, p3⟩ := lt_iff.1 hcond
        exact lt_iff.2 ⟨n1, p2, by omega⟩
      have hs' : s.c = c0 ∨ ∃ k, s.c = c0.stored data k := by
        rcases hs with hs | hs
        · exact grown_stored hs
        · exact Or.inl hs.1
      unfold Poly.loop at h h'
      rw [if_pos hcond] at h'
      rw [if_pos hcond2] at h
      simp only at h h'
      rcases poly_step_form E c0 data hc hn s hs' with ⟨s', g, hc', -, hst⟩ | ⟨e, hst⟩
      · rcases hst with hst | hst
        · rw [hst t] at h; rw [hst t'] at h'
          obtain rfl := Except.ok.inj h; obtain rfl := Except.ok.inj h'; exact le_refl _
        · rw [hst t] at h; rw [hst t'] at h'
          exact ih s' r r' (Or.inl g) h h'
      · obtain ⟨s1, e1, c1⟩ := hst t
        obtain ⟨s2, e2, c2⟩ := hst t'
        rw [e1] at h; rw [e2] at h'
        obtain rfl := Except.ok.inj h; obtain rfl := Except.ok.inj h'
        unfold PolyLoop.count
        rw [c1, c2]
        by_cases h1 : (roundF64 e 4).lt t = true
        · have h2 : (roundF64 e 4).lt t' = true := by
            obtain ⟨p1, p2, p3⟩ := lt_iff.1 h1
            exact lt_iff.2 ⟨p1, n2, by omega⟩
          rw [if_pos h1, if_pos h2]
        · rw [if_neg h1]
          split_ifs
          · exact count_all hn (hint_pos _ _)
          · exact le_refl _
    · rcases hs with hs | hs
      · have h1 := poly_loop_grows hc hn _ s r hs h
        unfold Poly.loop at h'
        rw [if_neg hcond] at h'
        obtain rfl := Except.ok.inj h'; exact h1
      · exact absurd hs.2.2 hcond

theorem round_le {e e' : F64} (h : Looser e e') : (roundF64 e 3).le (roundF64 e' 3) = true := by
  have hm := mag_le_of_val h.nonneg h.le
  have n1 := isFinite_not_nan h.fin
  have n2 := isFinite_not_nan h.fin'
  have r1 : (roundF64 e 3).isNaN = false := by rw [roundF64_nan e (by norm_num)]; exact n1
  have r2 : (roundF64 e' 3).isNaN = false := by rw [roundF64_nan e' (by norm_num)]; exact n2
  have hmm := absVal_le_of_mag (roundF64_mag_mono n1 n2 (d := 3) (by norm_num) hm)
  refine le_iff.2 ⟨r1, r2, ?_⟩
  have hle : (roundF64 e 3).scaled ≤ (roundF64 e 3).absVal := by unfold scaled; split_ifs <;> omega
  by_cases hs : e'.sign = false
  · rw [scaled_pos_sign (roundF64_sign hs n2 (d := 3) (by norm_num))]
    omega
  · have hz : e'.val = 0 := by
      have h0 := le_trans h.nonneg h.le
      rw [val_sgn (by decide), Bool.not_eq_false _ |>.mp hs] at h0 ⊢
      have h1 : (0 : ℚ) ≤ (e'.absVal : ℚ) / 2 ^ qexp 52 11 := div_nonneg (Nat.cast_nonneg _) (qpow_posQ 52 11).le
      have h2 : sgn true = -1 := rfl
      rw [h2] at h0 ⊢
      generalize (e'.absVal : ℚ) / 2 ^ qexp 52 11 = A at *
      linarith
    have hm0 : e'.mag.val = 0 := by
      have : e'.absVal = 0 := by by_contra hc; exact absVal_ne_zero_iff.1 hc hz
      exact magVal_eq_zero.1 this
    have hz0 : (roundF64 (FP.zero : F64) 3).mag.val = 0 := by decide +kernel
    have hb := roundF64_mag_mono n2 (b := (FP.zero : F64)) (by decide +kernel) (d := 3) (by norm_num) (by omega)
    have h0 : (roundF64 e' 3).absVal = 0 := by
      unfold absVal; rw [show (roundF64 e' 3).mag.val = 0 by omega]; exact magVal_zero _
    have : (roundF64 e' 3).scaled = 0 := by
      have := scaled_natAbs (roundF64 e' 3); omega
    omega

/-- The first round does not look at the initial error. -/
theorem poly_init_err (E : Ext) (data : List F64) (t : F64) (f : Nat) (c : Poly) {x y : F64} (hx : t.lt (roundF64 x 4) = true)
    (hy : t.lt (roundF64 y 4) = true) :
    Poly.loop E data t (f + 1) { c := c, err := x, jump := 0, iterations := 0 } = Poly.loop E data t (f + 1) { c := c, err := y, jump := 0, iterations := 0 } := by
  unfold Poly.loop
  rw [if_pos hx, if_pos hy]
  rfl

theorem poly_init_err' (E : Ext) (data : List F64) (t : F64) (c : Poly) {x y : F64} (hx : t.lt (roundF64 (x.add (F64.lit 1)) 4) = true)
    (hy : t.lt (roundF64 (y.add (F64.lit 1)) 4) = true) : Poly.loop E data t 23 (c.loopInit x) = Poly.loop E data t 23 (c.loopInit y) :=
  poly_init_err E data t 22 c hx hy

theorem lt_of_le_lt {a b c : F64} (h : a.le b = true) (h' : b.lt c = true) : a.lt c = true := by
  obtain ⟨p1, -, p2⟩ := le_iff.1 h
  obtain ⟨-, q1, q2⟩ := lt_iff.1 h'
  exact lt_iff.2 ⟨p1, q1, by omega⟩

theorem poly_both (E : Ext) (ty : PolyType) (data : List F64) (hne : data ≠ []) (e e' : F64) (h : Looser e e') (st : DataStats) (hst : DataStats.new data = .ok st) :
    ∃ (r r' : CResult) (c c' : Poly), ty.comp.boundedResults E data e = .ok r ∧ ty.comp.boundedResults E data e' = .ok r' ∧ r.data = c.enc ∧ r'.data = c'.enc ∧
      c'.dataPoints.length ≤ c.dataPoints.length ∧ c.dataPoints.length ≤ data.length ∧ c.id = ty ∧ c'.id = ty ∧ c.bitdepth = st.bitdepth ∧ c'.bitdepth = st.bitdepth := by
  have hn : 1 ≤ data.length := List.length_pos_of_ne_nil hne
  have hbig : (1000000 : ℚ) ≤ 2 ^ 40 := by norm_num
  have hb : |e.val| ≤ 2 ^ 40 := by rw [abs_of_nonneg h.nonneg]; exact le_trans (le_trans h.le h.bound) hbig
  have hb' : |e'.val| ≤ 2 ^ 40 := by rw [abs_of_nonneg (le_trans h.nonneg h.le)]; exact le_trans h.bound hbig
  have hent := search_entered h.fin hb
  have hent' := search_entered h.fin' hb'
  have hmono := round_le h
  rw [(comp_bounded E ty data hne e).1, (comp_bounded E ty data hne e').1]
  unfold polynomialAllowedError
  simp only [hst, ok_bind]
  cases hc : st.max.feq st.min with
  | true =>
    have : ∀ x, (Poly.new st.min st.max ty st.bitdepth).compressBounded E data x = .ok (Poly.start st ty) := by
      intro x; unfold Poly.compressBounded; rw [if_pos (by exact hc)]; rfl
    rw [this, this]
    exact ⟨_, _, Poly.start st ty, Poly.start st ty, rfl, rfl, rfl, rfl, le_refl _, Nat.zero_le _, rfl, rfl, rfl, rfl⟩
  | false =>
    have hcb : ∀ x, (Poly.new st.min st.max ty st.bitdepth).compressBounded E data x =
        (Poly.loop E data (roundF64 x 3) 23 ((Poly.start st ty).loopInit x) >>= fun s => .ok { s.c with error := some s.err }) := by
      intro x
      unfold Poly.compressBounded
      rw [if_neg (by show ¬ st.max.feq st.min = true; rw [hc]; decide)]; rfl
    obtain ⟨s, h1, -, d1⟩ := poly_loop E (Poly.start st ty) data (roundF64 e 3) hc hn 23 ((Poly.start st ty).loopInit e)
      (Nat.zero_le _) (Nat.le_refl _) (Or.inr ⟨rfl, hent⟩)
    obtain ⟨s', h1', -, d1'⟩ := poly_loop E (Poly.start st ty) data (roundF64 e' 3) hc hn 23 ((Poly.start st ty).loopInit e')
      (Nat.zero_le _) (Nat.le_refl _) (Or.inr ⟨rfl, hent'⟩)
    rw [hcb, hcb, h1, h1']
    obtain ⟨k, k1, -, ks⟩ := polyDone_stored d1
    obtain ⟨k', -, -, ks'⟩ := polyDone_stored d1'
    refine ⟨_, _, { s.c with error := some s.err }, { s'.c with error := some s'.err }, rfl, rfl, rfl, rfl, ?_, ?_, ?_, ?_, ?_, ?_⟩
    · show s'.count ≤ s.count
      have hx : (roundF64 e 3).lt (roundF64 (e'.add (F64.lit 1)) 4) = true := lt_of_le_lt hmono hent'
      have heq : Poly.loop E data (roundF64 e 3) 23 ((Poly.start st ty).loopInit e) = Poly.loop E data (roundF64 e 3) 23 ((Poly.start st ty).loopInit e') :=
        poly_init_err' E data (roundF64 e 3) (Poly.start st ty) hent hx
      rw [heq] at h1
      have hi : ((Poly.start st ty).loopInit e').err = e'.add (F64.lit 1) := rfl
      have hic : ((Poly.start st ty).loopInit e').c = Poly.start st ty := rfl
      refine poly_loops (c0 := Poly.start st ty) hc hn hmono 23 ((Poly.start st ty).loopInit e') s s' (Or.inr ⟨hic, ?_, ?_⟩) h1 h1'
      · rw [hi]; exact hx
      · rw [hi]; exact hent'
    · show s.c.dataPoints.length ≤ _
      rw [ks]; exact stored_length_le hn k1 _
    · show s.c.id = ty
      rw [ks]; rfl
    · show s'.c.id = ty
      rw [ks']; rfl
    · show s.c.bitdepth = _
      rw [ks]; rfl
    · show s'.c.bitdepth = _
      rw [ks']; rfl

/-- **C79**, Polynomial and IDW: with a larger allowed error the frame never stores more samples. -/
theorem C79_points (E : Ext) (ty : PolyType) (data : List F64) (hne : data ≠ []) (hlen : data.length < 2 ^ 64) (e e' : F64) (h : Looser e e') :
    ∃ r r' c c', ty.comp.boundedResults E data e = .ok r ∧ ty.comp.boundedResults E data e' = .ok r' ∧
      unwrapDec Poly.dec r.data = .ok c ∧ unwrapDec Poly.dec r'.data = .ok c' ∧ c'.dataPoints.length ≤ c.dataPoints.length := by
  obtain ⟨st, hst⟩ := stats_ok hne
  obtain ⟨r, r', c, c', h1, h2, h3, h4, h5, h6, -⟩ := poly_both E ty data hne e e' h st hst
  refine ⟨r, r', c.seen, c'.seen, h1, h2, ?_, ?_, ?_⟩
  · rw [h3]; exact poly_unwrap c (by omega)
  · rw [h4]; exact poly_unwrap c' (by omega)
  · simpa [Poly.seen] using h5

theorem encVec_fixed {α : Type} {enc : α → Bytes} {w : Nat} (hw : ∀ x, (enc x).length = w) : ∀ l : List α, ((l.map enc).flatten).length = w * l.length := by
  intro l
  induction l with
  | nil => rfl
  | cons x l ih => rw [List.map_cons, List.flatten_cons, List.length_append, ih, hw, List.length_cons, Nat.mul_succ, Nat.add_comm]

/-- **C79**, Polynomial and IDW: when samples are stored in a fixed width (one byte or as doubles) the payload is never larger with a larger allowed
error.  Missing: 16- and 32-bit integers, whose encoding takes more bytes for larger values, see `C79_refuted_bytes`. -/
theorem C79_poly (E : Ext) (ty : PolyType) (data : List F64) (hne : data ≠ []) (e e' : F64) (h : Looser e e')
    (st : DataStats) (hst : DataStats.new data = .ok st) (hbd : st.bitdepth = .u8 ∨ st.bitdepth = .f64) :
    ∃ r r', ty.comp.boundedResults E data e = .ok r ∧ ty.comp.boundedResults E data e' = .ok r' ∧ r'.data.length ≤ r.data.length := by
  obtain ⟨r, r', c, c', h1, h2, h3, h4, h5, -, i1, i2, b1, b2⟩ := poly_both E ty data hne e e' h st hst
  refine ⟨r, r', h1, h2, ?_⟩
  rw [h3, h4]
  obtain ⟨w, hw⟩ : ∃ w, ∀ x, (encValue st.bitdepth x).length = w := by
    rcases hbd with hb | hb <;> rw [hb]
    · exact ⟨1, fun x => rfl⟩
    · exact ⟨8, fun x => by simp [encValue, encF64, leBytes_length]⟩
  have hv := encVar_mono h5
  have f8 : ∀ x : F64, (encF64 x).length = 8 := fun x => by simp [encF64, leBytes_length]
  unfold Poly.enc encVec
  rw [i1, i2, b1, b2]
  simp only [List.length_append, encVec_fixed hw, f8, encU8_len]
  have := Nat.mul_le_mul_left w h5
  omega

/-- The eleven samples of the counterexample: stored as 16-bit integers, of which 126 takes three bytes and 120 one. -/
def wideSamples : List F64 := [F64.lit (-1), F64.lit 120, F64.lit 120, F64.lit 126, F64.lit 120, F64.lit 120, F64.lit 120, F64.lit 120, F64.lit 120, F64.lit 126, F64.lit 120]

/-- C79 refuted for Polynomial on 16-bit integers (with the interpolation of the `splines` crate): allowing 11% instead of 10% makes the payload grow
from 26 to 29 bytes. -/
theorem C79_refuted_bytes : ∃ r r', Compressor.polynomial.boundedResults Ext.dummy.withInterp wideSamples ((F64.lit 10).div (F64.lit 100)) = .ok r ∧
    Compressor.polynomial.boundedResults Ext.dummy.withInterp wideSamples ((F64.lit 11).div (F64.lit 100)) = .ok r' ∧
    r.data.length = 26 ∧ r'.data.length = 29 := by
  have h : okAnd (Compressor.polynomial.boundedResults Ext.dummy.withInterp wideSamples ((F64.lit 10).div (F64.lit 100))) (fun r =>
      okAnd (Compressor.polynomial.boundedResults Ext.dummy.withInterp wideSamples ((F64.lit 11).div (F64.lit 100))) fun r' =>
        decide (r.data.length = 26 ∧ r'.data.length = 29)) = true := by decide +kernel
  obtain ⟨r, h1, h⟩ := okAnd_iff.1 h
  obtain ⟨r', h2, h⟩ := okAnd_iff.1 h
  exact ⟨r, r', h1, h2, of_decide_eq_true h⟩

/-- 10% and 11% are bounds as required. -/
theorem looser_10_11 : Looser ((F64.lit 10).div (F64.lit 100)) ((F64.lit 11).div (F64.lit 100)) := by
  have hz : (FP.zero : F64).val = 0 := zero_val.1
  have h6 : (F64.lit 1000000).val = 1000000 := by rw [lit_val' (by decide)]; norm_num
  refine ⟨by decide +kernel, by decide +kernel, ?_, ?_, ?_⟩
  · rw [← hz, val_le_iff (by decide)]; decide +kernel
  · rw [val_le_iff (by decide)]; decide +kernel
  · rw [← h6, val_le_iff (by decide)]; decide +kernel

/-- The theorems on concrete bounds and data. -/
example : ∃ r r', Compressor.fft.boundedResults Ext.dummy wideSamples ((F64.lit 10).div (F64.lit 100)) = .ok r ∧
    Compressor.fft.boundedResults Ext.dummy wideSamples ((F64.lit 11).div (F64.lit 100)) = .ok r' ∧ r'.data.length ≤ r.data.length :=
  C79_fft _ Ext.dummy_lawful _ (by decide) _ _ looser_10_11
example : okAnd (DataStats.new [F64.lit 1, F64.lit 9, F64.lit 200]) (fun st => st.bitdepth == .u8) = true := by decide +kernel

/-- **C79**, the other compressors do not look at the allowed error. -/
theorem C79_others (E : Ext) (c : Compressor) (hc : c = .noop ∨ c = .constant ∨ c = .rle) (data : List F64) (e e' : F64) :
    c.boundedResults E data e = c.boundedResults E data e' := by
  rcases hc with rfl | rfl | rfl <;> rfl

end Atsc
