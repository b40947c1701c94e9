import Verif.Lemmas.Fft
import Verif.Lemmas.Milli
import Verif.Props.Poly
import Verif.Spec.Fft
/- C20-C24 and the FFT part of C58. -/
namespace Atsc
open FP

/-! ### Case analysis -/

/-- The compressor before the search. -/
def Fft.start (st : DataStats) : Fft := Fft.new st.min st.max

theorem fft_plain_cases (E : Ext) (hE : E.Lawful) (data : List F64) (hne : data ≠ []) (st : DataStats)
    (hst : DataStats.new data = .ok st) :
    ∃ c, Compressor.fft.compress E data = .ok c.enc ∧
      (((Fft.start st).maxValue.feq (Fft.start st).minValue = true ∧ c = Fft.start st) ∨
       ((Fft.start st).maxValue.feq (Fft.start st).minValue = false ∧
        ∃ fs, fftTrim E (fftHalf E data) (baselinePoints data.length) = .ok fs ∧ c = { Fft.start st with frequencies := fs })) := by
  obtain ⟨d0, r, rfl⟩ := List.exists_cons_of_ne_nil hne
  have hm := minMax_stats hst
  simp only [Compressor.compress, hst, ok_bind, fftPlain, hm]
  cases hc : (Fft.start st).maxValue.feq (Fft.start st).minValue with
  | true =>
    refine ⟨Fft.start st, ?_, Or.inl ⟨rfl, rfl⟩⟩
    have : (Fft.new st.min st.max).compress E (d0 :: r) = .ok (Fft.start st) := by
      unfold Fft.compress Fft.compressHinted
      rw [if_pos (by exact hc)]; rfl
    rw [this]; rfl
  | false =>
    have hb : baselinePoints (d0 :: r).length ≠ 1 := by unfold baselinePoints; split_ifs <;> omega
    have htr := fftTrim_ok hE (half := fftHalf E (d0 :: r)) hb
    refine ⟨_, ?_, Or.inr ⟨rfl, _, htr, rfl⟩⟩
    have : (Fft.new st.min st.max).compress E (d0 :: r) = (fftTrim E (fftHalf E (d0 :: r)) (baselinePoints (d0 :: r).length) >>=
        fun fs => .ok { Fft.start st with frequencies := fs }) := by
      unfold Fft.compress Fft.compressHinted
      rw [if_neg (by show ¬ (Fft.start st).maxValue.feq (Fft.start st).minValue = true; rw [hc]; decide)]; rfl
    rw [this, htr]; rfl

theorem fft_core_cases (E : Ext) (hE : E.Lawful) (data : List F64) (hne : data ≠ []) (e : F64) (st : DataStats) :
    ∃ c r, fftCompressor E data e st = .ok r ∧ r.data = c.enc ∧
      (((Fft.start st).maxValue.feq (Fft.start st).minValue = true ∧ c = Fft.start st ∧ r.error = FP.zero) ∨
       ((Fft.start st).maxValue.feq (Fft.start st).minValue = false ∧ ¬ milli e < milli (e.add (F64.lit 1)) ∧ c = Fft.start st ∧
          r.error = e.add (F64.lit 1)) ∨
       ((Fft.start st).maxValue.feq (Fft.start st).minValue = false ∧ milli e < milli (e.add (F64.lit 1)) ∧
          ∃ s, FftRound E (Fft.start st) (gibbsData data) (fftHalf E (gibbsData data)) (baselinePoints data.length) s ∧
            1 ≤ s.iterations ∧ (s.iterations ≤ 22 ∧ milli s.err ≤ milli e ∨ s.iterations = 23) ∧ c = s.c ∧ r.error = s.err)) := by
  have hn : 1 ≤ data.length := List.length_pos_of_ne_nil hne
  cases hc : (Fft.start st).maxValue.feq (Fft.start st).minValue with
  | true =>
    refine ⟨Fft.start st, { data := (Fft.start st).enc, error := FP.zero }, ?_, rfl, Or.inl ⟨rfl, rfl, rfl⟩⟩
    unfold fftCompressor
    have : (Fft.new st.min st.max).compressBounded E data e = .ok (Fft.start st) := by
      unfold Fft.compressBounded
      rw [if_pos (by exact hc)]; rfl
    rw [this]; rfl
  | false =>
    have hcb : fftCompressor E data e st = (Fft.loop E (gibbsData data) (fftHalf E (gibbsData data)) (baselinePoints data.length) e 23
        { c := Fft.start st, err := e.add (F64.lit 1), jump := 0, iterations := 0 } >>= fun s =>
          .ok { data := s.c.enc, error := s.err }) := by
      unfold fftCompressor Fft.compressBounded
      rw [if_neg (by show ¬ (Fft.start st).maxValue.feq (Fft.start st).minValue = true; rw [hc]; decide)]
      simp only [bind_assoc]
      rfl
    rw [hcb]
    by_cases hent : milli e < milli (e.add (F64.lit 1))
    · have hgl := gibbsData_length hn
      have hge := paddedLen_ge data.length
      have hh : (fftHalf E (gibbsData data)).length ≤ (gibbsData data).length := by
        rw [fftHalf_length hE (by omega)]; omega
      obtain ⟨s, h1, h2, h3, h4⟩ := fft_loop E hE (Fft.start st) (gibbsData data) (fftHalf E (gibbsData data)) hh (baselinePoints data.length)
        (by unfold baselinePoints; split_ifs <;> omega) e 23 { c := Fft.start st, err := e.add (F64.lit 1), jump := 0, iterations := 0 }
        (Nat.zero_le _) (Nat.le_refl _) (by simp [fftJump]) (Or.inr ⟨rfl, hent⟩)
      rw [h1]
      exact ⟨s.c, _, rfl, rfl, Or.inr (Or.inr ⟨rfl, hent, s, h2, h3, h4, rfl, rfl⟩)⟩
    · have : Fft.loop E (gibbsData data) (fftHalf E (gibbsData data)) (baselinePoints data.length) e 23
        { c := Fft.start st, err := e.add (F64.lit 1), jump := 0, iterations := 0 } = .ok { c := Fft.start st, err := e.add (F64.lit 1), jump := 0, iterations := 0 } := by
        unfold Fft.loop
        rw [if_neg hent]
      rw [this]
      exact ⟨Fft.start st, _, rfl, rfl, Or.inr (Or.inl ⟨rfl, hent, rfl, rfl⟩)⟩

theorem fft_bounded_cases (E : Ext) (hE : E.Lawful) (data : List F64) (hne : data ≠ []) (e : F64) (st : DataStats)
    (hst : DataStats.new data = .ok st) :
    ∃ c r, Compressor.fft.boundedResults E data e = .ok r ∧ Compressor.fft.compressBounded E data e = .ok r.data ∧ r.data = c.enc ∧
      (((Fft.start st).maxValue.feq (Fft.start st).minValue = true ∧ c = Fft.start st ∧ r.error = FP.zero) ∨
       ((Fft.start st).maxValue.feq (Fft.start st).minValue = false ∧ ¬ milli e < milli (e.add (F64.lit 1)) ∧ c = Fft.start st ∧
          r.error = e.add (F64.lit 1)) ∨
       ((Fft.start st).maxValue.feq (Fft.start st).minValue = false ∧ milli e < milli (e.add (F64.lit 1)) ∧
          ∃ s, FftRound E (Fft.start st) (gibbsData data) (fftHalf E (gibbsData data)) (baselinePoints data.length) s ∧
            1 ≤ s.iterations ∧ (s.iterations ≤ 22 ∧ milli s.err ≤ milli e ∨ s.iterations = 23) ∧ c = s.c ∧ r.error = s.err)) := by
  obtain ⟨c, r, h1, h2, h3⟩ := fft_core_cases E hE data hne e st
  refine ⟨c, r, ?_, ?_, h2, h3⟩
  · simp only [Compressor.boundedResults, hst, ok_bind, h1]
  · simp only [Compressor.compressBounded, hst, ok_bind, h1]

/-- Every frequency list the compressor can store. -/
theorem fft_frame_freqs {E : Ext} (hE : E.Lawful) {half : List C32} {k : Nat} (hk : k ≠ 1) {fs : List FreqPoint}
    (h : fftTrim E half k = .ok fs) {c0 : Fft} (hl : half.length < 2 ^ 64) :
    ({ c0 with frequencies := fs } : Fft).Ok ∧ ∀ f ∈ fs, f.pos < half.length := by
  obtain ⟨_, h2, h3⟩ := fftTrim_bins hE hk h
  exact ⟨⟨lt_of_le_of_lt h2 hl, fun f hf => (isBin_pos (h3 f hf)).2⟩, fun f hf => (isBin_pos (h3 f hf)).1⟩

theorem infMag64_pos : 0 < infMag 52 11 := by decide
theorem infMag32_pos : 0 < infMag 23 8 := by decide

theorem stats_range {data : List F64} (hne : data ≠ []) (hn : ∀ y ∈ data, y.isNaN = false) {st : DataStats}
    (hst : DataStats.new data = .ok st) : st.min ∈ data ∧ st.max ∈ data ∧ ∀ x ∈ data, st.min.le x = true ∧ x.le st.max = true := by
  obtain ⟨st', a, g1, hinv, e1, e2, -⟩ := stats_spec hne hn
  rw [hst] at g1; injection g1 with g1; subst g1
  have hmaxm : st.max ∈ data := e1 ▸ List.mem_of_getElem? hinv.max_at
  have hminm : st.min ∈ data := e2 ▸ List.mem_of_getElem? hinv.min_at
  refine ⟨hminm, hmaxm, fun x hx => ⟨le_iff.2 ⟨hn _ hminm, hn x hx, ?_⟩, le_iff.2 ⟨hn x hx, hn _ hmaxm, ?_⟩⟩⟩
  · rw [e2]; exact hinv.min_le _ hx
  · rw [e1]; exact hinv.max_le _ hx

theorem fft_nonconst {data : List F64} (hn : ∀ y ∈ data, y.isNaN = false) {st : DataStats} (hst : DataStats.new data = .ok st)
    {a b : F64} (ha : a ∈ data) (hb : b ∈ data) (hab : (FP.cvt a : F32).lt (FP.cvt b : F32) = true) :
    (Fft.start st).maxValue.feq (Fft.start st).minValue = false := by
  have hne : data ≠ [] := by rintro rfl; simp at ha
  obtain ⟨_, _, h⟩ := stats_range hne hn hst
  have h1 := le_iff.1 (cvt_mono (mb' := 23) (eb' := 8) infMag64_pos (h a ha).1)
  have h2 := le_iff.1 (cvt_mono (mb' := 23) (eb' := 8) infMag64_pos (h b hb).2)
  have h3 := lt_iff.1 hab
  rw [Bool.eq_false_iff]
  intro hc
  have h4 := (feq_iff.1 hc).2.2
  have e1 : (Fft.start st).maxValue = FP.cvt st.max := rfl
  have e2 : (Fft.start st).minValue = FP.cvt st.min := rfl
  rw [e1, e2] at h4
  omega

/-! ### C20 and the FFT part of C07 -/

/-- `x` as the FFT frame stores a limit of the range: rounded to single precision and widened again. -/
def toSingle (x : F64) : F64 := FP.cvt (FP.cvt x : F32)

/-- Every decoded sample is NaN or between two samples of the chunk rounded to single precision. -/
def WithinChunkSingle (data out : List F64) : Prop :=
  ∀ y ∈ out, y.isNaN = false → (∃ a ∈ data, (toSingle a).le y = true) ∧ ∃ b ∈ data, y.le (toSingle b) = true

theorem fft_frame_within (E : Ext) (hE : E.Lawful) {data : List F64} (hne : data ≠ []) (hn : ∀ y ∈ data, y.isNaN = false)
    {st : DataStats} (hst : DataStats.new data = .ok st) (fs : List FreqPoint) (hok : ({ Fft.start st with frequencies := fs } : Fft).Ok)
    (hpos : ∀ f ∈ fs, f.pos < paddedLen data.length) :
    ∃ out, Compressor.fft.decompress E data.length ({ Fft.start st with frequencies := fs } : Fft).enc = .ok out ∧
      out.length = data.length ∧ WithinChunkSingle data out := by
  obtain ⟨hminm, hmaxm, hrange⟩ := stats_range hne hn hst
  have hle64 : st.min.le st.max = true := (hrange _ hmaxm).1
  have hle32 : (FP.cvt st.min : F32).le (FP.cvt st.max) = true := cvt_mono infMag64_pos hle64
  have hle : (toSingle st.min).le (toSingle st.max) = true := cvt_mono infMag32_pos hle32
  obtain ⟨hn1, hn2, _⟩ := le_iff.1 hle
  set c : Fft := { Fft.start st with frequencies := fs } with hcdef
  have hdec : Compressor.fft.decompress E data.length c.enc = c.toData E data.length := by
    simp only [Compressor.decompress, fftToData]
    rw [fft_unwrap c hok, ok_bind]
    rfl
  rw [hdec]
  cases hc : c.maxValue.feq c.minValue with
  | true =>
    unfold Fft.toData
    rw [if_pos hc]
    refine ⟨_, rfl, List.length_replicate, fun y hy _ => ?_⟩
    obtain rfl := List.eq_of_mem_replicate hy
    have h1 : (toSingle st.max).le (toSingle st.max) = true := le_iff.2 ⟨hn2, hn2, le_refl _⟩
    exact ⟨⟨_, hmaxm, h1⟩, ⟨_, hmaxm, h1⟩⟩
  | false =>
    rw [toData_window E hE c _ hc]
    obtain ⟨out, h1, h2, h3⟩ := reconstruct_ok hE c (paddedLen data.length) hpos
    rw [h1, ok_bind]
    refine ⟨_, rfl, ?_, ?_⟩
    · rw [List.length_take, List.length_drop, h2]
      have := nextSize_gt data.length
      unfold padBefore paddedLen; split_ifs <;> omega
    · intro y hy hyn
      obtain ⟨v, rfl⟩ := h3 y (List.drop_subset _ _ (List.take_subset _ _ hy))
      obtain ⟨k1, k2⟩ := fftRound_range c v hle hyn
      exact ⟨⟨_, hminm, k1⟩, ⟨_, hmaxm, k2⟩⟩

theorem fftOk_nil (st : DataStats) : (Fft.start st).Ok := ⟨Nat.two_pow_pos 64, fun f hf => by cases hf⟩

/-- C20 (and C07 for FFT), plain compression: for every chunk without NaN and whatever the FFT library computes, decompression
succeeds with as many samples, each of them NaN or within the chunk's range rounded to single precision. -/
theorem C20_range_plain (E : Ext) (hE : E.Lawful) (data : List F64) (hne : data ≠ []) (hlen : data.length < 2 ^ 62)
    (hn : ∀ y ∈ data, y.isNaN = false) :
    ∃ bs out, Compressor.fft.compress E data = .ok bs ∧ Compressor.fft.decompress E data.length bs = .ok out ∧
      out.length = data.length ∧ WithinChunkSingle data out := by
  have h1 : 1 ≤ data.length := List.length_pos_of_ne_nil hne
  obtain ⟨st, hst⟩ := stats_ok hne
  obtain ⟨c, h2, ⟨_, rfl⟩ | ⟨_, fs, h4, rfl⟩⟩ := fft_plain_cases E hE data hne st hst
  · obtain ⟨out, ho⟩ := fft_frame_within E hE hne hn hst [] (fftOk_nil st) (by simp)
    exact ⟨_, out, h2, ho⟩
  · have hhl := fftHalf_length hE h1
    obtain ⟨k1, k2⟩ := fft_frame_freqs hE (by unfold baselinePoints; split_ifs <;> omega) h4 (c0 := Fft.start st) (by omega)
    have := paddedLen_ge data.length
    obtain ⟨out, ho⟩ := fft_frame_within E hE hne hn hst fs k1 fun f hf => by have := k2 f hf; omega
    exact ⟨_, out, h2, ho⟩

theorem paddedLen_lt {n : Nat} (h1 : 1 ≤ n) (hn : n < 2 ^ 62) : paddedLen n < 2 ^ 63 := by
  have := C33_next_size_le_double n h1
  unfold paddedLen; split_ifs <;> omega

/-- The frequencies of a bounded frame. -/
theorem fft_bounded_freqs (E : Ext) (hE : E.Lawful) (data : List F64) (hne : data ≠ []) (hlen : data.length < 2 ^ 62) (e : F64)
    (st : DataStats) (hst : DataStats.new data = .ok st) :
    ∃ fs r, Compressor.fft.boundedResults E data e = .ok r ∧ Compressor.fft.compressBounded E data e = .ok r.data ∧
      r.data = ({ Fft.start st with frequencies := fs } : Fft).enc ∧ ({ Fft.start st with frequencies := fs } : Fft).Ok ∧
      ∀ f ∈ fs, f.pos < paddedLen data.length := by
  have h1 : 1 ≤ data.length := List.length_pos_of_ne_nil hne
  obtain ⟨c, r, h2, h3, h4, h5⟩ := fft_bounded_cases E hE data hne e st hst
  rcases h5 with ⟨_, rfl, _⟩ | ⟨_, _, rfl, _⟩ | ⟨_, _, s, ⟨⟨fs, h6, h7⟩, _⟩, _, _, rfl, _⟩
  · exact ⟨[], r, h2, h3, h4, fftOk_nil st, by simp⟩
  · exact ⟨[], r, h2, h3, h4, fftOk_nil st, by simp⟩
  · have hge := paddedLen_ge data.length
    have hlt := paddedLen_lt h1 hlen
    have hgl := gibbsData_length h1
    have hhl := fftHalf_length (E := E) hE (data := gibbsData data) (by omega)
    have hb : 3 ≤ baselinePoints data.length := by unfold baselinePoints; split_ifs <;> omega
    obtain ⟨k1, k2⟩ := fft_frame_freqs hE (by omega) h6 (c0 := Fft.start st) (by omega)
    exact ⟨fs, r, h2, h3, by rw [h4, h7], k1, fun f hf => by have := k2 f hf; omega⟩

/-- C20, error-bounded compression, for every bound (even NaN). -/
theorem C20_range_bounded (E : Ext) (hE : E.Lawful) (data : List F64) (hne : data ≠ []) (hlen : data.length < 2 ^ 62)
    (hn : ∀ y ∈ data, y.isNaN = false) (e : F64) :
    ∃ bs out, Compressor.fft.compressBounded E data e = .ok bs ∧ Compressor.fft.decompress E data.length bs = .ok out ∧
      out.length = data.length ∧ WithinChunkSingle data out := by
  obtain ⟨st, hst⟩ := stats_ok hne
  obtain ⟨fs, r, _, h3, h4, h5, h6⟩ := fft_bounded_freqs E hE data hne hlen e st hst
  obtain ⟨out, ho⟩ := fft_frame_within E hE hne hn hst fs h5 h6
  exact ⟨_, out, h3, by rw [h4]; exact ho.1, ho.2⟩

example : okAnd (Compressor.fft.compressBounded Ext.dummy rampData (F64.lit 1) >>= Compressor.fft.decompress Ext.dummy 10)
    (fun out => out.length = 10) = true := by decide +kernel


/-! ### C21 -/

theorem fftHalf_eq (E : Ext) (g : List F64) : fftHalf E g = (E.spectrum g).take ((E.spectrum g).length / 2 + 1) := rfl

theorem pts_pos_nodup {half : List C32} (h : half.length ≤ 65536) :
    ((half.mapIdx fun pos b => FreqPoint.of b pos).map (·.pos)).Nodup := by
  have : (half.mapIdx fun pos b => FreqPoint.of b pos).map (·.pos) = List.range half.length := by
    apply List.ext_getElem
    · simp
    · intro i h1 h2
      simp only [List.getElem_map, List.getElem_mapIdx, List.getElem_range, FreqPoint.of]
      simp at h2
      omega
  rw [this]
  exact List.nodup_range

theorem fftTrim_stores {E : Ext} (hE : E.Lawful) {g : List F64} {k : Nat} (hk : k ≠ 1) (hl : g.length ≤ 131071)
    {fs : List FreqPoint} (h : fftTrim E (fftHalf E g) k = .ok fs) :
    (fs.map (·.pos)).Nodup ∧ ∀ f ∈ fs, f.pos < (E.spectrum g).length / 2 + 1 ∧ (E.spectrum g)[f.pos]? = some { re := f.re, im := f.im } := by
  have hsp : (E.spectrum g).length = g.length := by unfold Ext.spectrum; rw [hE.fwd_len]; simp
  have hhl : (fftHalf E g).length ≤ 65536 := by
    rw [fftHalf_eq, List.length_take, hsp]; omega
  obtain ⟨_, _, hb⟩ := fftTrim_bins hE hk h
  constructor
  · rw [fftTrim_ok hE hk] at h
    have h := Except.ok.inj h
    have hnd := ((E.pops_perm _).map (·.pos)).nodup_iff.2 (pts_pos_nodup hhl)
    rw [← h]
    exact hnd.sublist (((List.takeWhile_sublist _).trans (List.take_sublist _ _)).map _)
  · intro f hf
    obtain ⟨p, hp, rfl⟩ := hb f hf
    have hmod : p % 65536 = p := by omega
    have hp2 := hp
    rw [fftHalf_eq, List.length_take] at hp2
    have hpl : p < (E.spectrum g).length := by omega
    simp only [FreqPoint.of, hmod]
    refine ⟨by omega, ?_⟩
    rw [List.getElem?_eq_getElem hpl]
    have : (fftHalf E g)[p] = (E.spectrum g)[p] := by
      simp only [fftHalf_eq, List.getElem_take]
    rw [this]

/-- C21, plain compression of at most 131071 samples. -/
theorem C21_positions_plain (E : Ext) (hE : E.Lawful) (data : List F64) (hne : data ≠ []) (hlen : data.length ≤ 131071) :
    ∃ bs, Compressor.fft.compress E data = .ok bs ∧ StoresBins (E.spectrum data) bs := by
  have h1 : 1 ≤ data.length := List.length_pos_of_ne_nil hne
  obtain ⟨st, hst⟩ := stats_ok hne
  obtain ⟨c, h2, ⟨_, rfl⟩ | ⟨_, fs, h4, rfl⟩⟩ := fft_plain_cases E hE data hne st hst
  · exact ⟨_, h2, _, fft_unwrap _ (fftOk_nil st), by simp [Fft.start, Fft.new], by simp [Fft.start, Fft.new]⟩
  · have hk : baselinePoints data.length ≠ 1 := by unfold baselinePoints; split_ifs <;> omega
    have hhl := fftHalf_length hE h1
    obtain ⟨k1, _⟩ := fft_frame_freqs hE hk h4 (c0 := Fft.start st) (by omega)
    exact ⟨_, h2, _, fft_unwrap _ k1, fftTrim_stores hE hk hlen h4⟩

/-- C22: how the chunk is extended before the transform. -/
theorem C22_padding (data : List F64) (hne : data ≠ []) : PaddedChunk data (gibbsData data) (padBefore data.length) := by
  have h1 : 1 ≤ data.length := List.length_pos_of_ne_nil hne
  by_cases h : data.length < 128
  · left
    unfold gibbsData padBefore
    rw [if_neg (by omega), if_neg (by omega)]
    exact ⟨h, rfl, rfl⟩
  · right
    have hgl := gibbsData_length h1
    have hN : paddedLen data.length = nextSize data.length := by unfold paddedLen; rw [if_pos (by omega)]
    refine ⟨by omega, data.head hne, data.getLast hne, nextSize data.length - data.length - padBefore data.length,
      List.head?_eq_some_head hne, List.getLast?_eq_some_getLast hne, ?_, ?_, ?_⟩
    · unfold gibbsData padBefore gibbsSizing
      rw [if_pos (by omega), if_pos (by omega), List.head?_eq_some_head hne, List.getLast?_eq_some_getLast hne]
    · rw [hgl, hN]; exact C33_next_size data.length
    · rw [hgl, hN]; unfold padBefore; rw [if_pos (by omega)]

theorem PaddedChunk.unique {data g g' : List F64} {pre pre' : Nat} (h : PaddedChunk data g pre) (h' : PaddedChunk data g' pre') :
    g = g' ∧ pre = pre' := by
  rcases h with ⟨a, b, c⟩ | ⟨a, f, l, suf, e1, e2, e3, e4, e5⟩
  · rcases h' with ⟨a', b', c'⟩ | ⟨a', _⟩
    · exact ⟨b.trans b'.symm, c.trans c'.symm⟩
    · omega
  · rcases h' with ⟨a', b', c'⟩ | ⟨a', f', l', suf', e1', e2', e3', e4', e5'⟩
    · omega
    · have hl := e4.unique e4'
      have hp : pre = pre' := by rw [e5, e5', hl]
      rw [e1] at e1'; rw [e2] at e2'
      obtain rfl := Option.some.inj e1'
      obtain rfl := Option.some.inj e2'
      rw [e3, e3'] at hl
      simp only [List.length_append, List.length_replicate] at hl
      have hs : suf = suf' := by omega
      exact ⟨by rw [e3, e3', hp, hs], hp⟩

theorem smooth_124416 : ThreeSmooth 124416 := ⟨9, 5, by norm_num⟩

/-- C21, error-bounded compression of at most 124415 samples (`g` is the extended chunk). -/
theorem C21_positions_bounded (E : Ext) (hE : E.Lawful) (data : List F64) (hne : data ≠ []) (hlen : data.length ≤ 124415)
    (e : F64) (g : List F64) (pre : Nat) (hg : PaddedChunk data g pre) :
    ∃ bs, Compressor.fft.compressBounded E data e = .ok bs ∧ StoresBins (E.spectrum g) bs := by
  have h1 : 1 ≤ data.length := List.length_pos_of_ne_nil hne
  obtain ⟨rfl, rfl⟩ := hg.unique (C22_padding data hne)
  obtain ⟨st, hst⟩ := stats_ok hne
  have hgl := gibbsData_length h1
  have hge := paddedLen_ge data.length
  have hpl : paddedLen data.length ≤ 131071 := by
    unfold paddedLen
    split_ifs
    · have := (C33_next_size data.length).2 ⟨show data.length < 124416 by omega, smooth_124416⟩
      omega
    · omega
  obtain ⟨c, r, h2, h3, h4, h5⟩ := fft_bounded_cases E hE data hne e st hst
  refine ⟨_, h3, ?_⟩
  rw [h4]
  rcases h5 with ⟨_, rfl, _⟩ | ⟨_, _, rfl, _⟩ | ⟨_, _, s, ⟨⟨fs, h6, h7⟩, _⟩, _, _, rfl, _⟩
  · exact ⟨_, fft_unwrap _ (fftOk_nil st), by simp [Fft.start, Fft.new], by simp [Fft.start, Fft.new]⟩
  · exact ⟨_, fft_unwrap _ (fftOk_nil st), by simp [Fft.start, Fft.new], by simp [Fft.start, Fft.new]⟩
  · have hb : 3 ≤ baselinePoints data.length := by unfold baselinePoints; split_ifs <;> omega
    have hhl := fftHalf_length (E := E) hE (data := gibbsData data) (by omega)
    obtain ⟨k1, _⟩ := fft_frame_freqs hE (by omega) h6 (c0 := Fft.start st) (by omega)
    rw [h7]
    exact ⟨_, fft_unwrap _ k1, fftTrim_stores hE (by omega) (by omega) h6⟩

example : StoresBins (Ext.dummy.spectrum rampData) (({ Fft.new (F64.lit 1) (F64.lit 10) with
    frequencies := [FreqPoint.of { re := FP.ofInt 2, im := FP.zero } 1] } : Fft).enc) :=
  ⟨_, fft_unwrap _ ⟨by decide, by decide⟩, by decide, by decide +kernel⟩

/-- A library whose forward transform has a single non-zero bin, number 65536. -/
def Ext.oneBin : Ext where
  fftFwd := fun b => b.mapIdx fun i _ => if i = 65536 then { re := FP.ofInt 1, im := FP.zero } else { re := FP.zero, im := FP.zero }
  fftInv := id
  norm := fun c => c.re
  spline := fun _ _ => none
  idw := fun _ _ t => t

theorem Ext.oneBin_lawful : Ext.oneBin.Lawful :=
  ⟨fun b => by simp [Ext.oneBin], fun _ => rfl⟩

theorem c32_one_ne : ({ re := FP.ofInt 1, im := FP.zero } : C32) ≠ { re := FP.zero, im := FP.zero } := by decide +kernel

/-- With that library and at least 131072 samples, what is selected contains bin 65536 at position 0. -/
theorem oneBin_wraps {g : List F64} (hg : 131072 ≤ g.length) {k : Nat} (hk : 2 ≤ k) {fs : List FreqPoint}
    (h6 : fftTrim Ext.oneBin (fftHalf Ext.oneBin g) k = .ok fs) :
    ¬ ∀ f ∈ fs, f.pos < (Ext.oneBin.spectrum g).length / 2 + 1 ∧ (Ext.oneBin.spectrum g)[f.pos]? = some { re := f.re, im := f.im } := by
  intro hst'
  set E := Ext.oneBin with hE
  have hlaw : E.Lawful := Ext.oneBin_lawful
  have hhl := fftHalf_length (E := E) hlaw (data := g) (by omega)
  have hm1 : k ≠ 1 := by omega
  have hbin : ∀ p (hp : p < (fftHalf E g).length), (fftHalf E g)[p] =
      if p = 65536 then { re := FP.ofInt 1, im := FP.zero } else { re := FP.zero, im := FP.zero } := by
    intro p hp
    simp only [fftHalf_eq, List.getElem_take]
    simp only [Ext.spectrum, hE, Ext.oneBin, List.getElem_mapIdx]
  set nz : FreqPoint → Bool := fun f => !(f.im.feq FP.zero && f.re.feq FP.zero) with hnz
  set pts := (fftHalf E g).mapIdx fun pos b => FreqPoint.of b pos with hpts
  have hp0 : 65536 < (fftHalf E g).length := by omega
  have hmem : FreqPoint.of { re := FP.ofInt 1, im := FP.zero } 65536 ∈ pts.filter nz := by
    rw [List.mem_filter]
    refine ⟨?_, by decide +kernel⟩
    rw [hpts, List.mem_mapIdx]
    exact ⟨65536, hp0, by rw [hbin _ hp0]; rfl⟩
  have hmem' := (E.pops_perm pts).mem_iff.2 (List.mem_filter.1 hmem).1
  obtain ⟨f0, fr, hf0⟩ := List.exists_cons_of_ne_nil (List.ne_nil_of_mem hmem')
  have hnorm : ∀ f ∈ pts, (E.norm f.toComplex).isNaN = false := by
    intro f hf
    obtain ⟨p, hp, rfl⟩ := List.mem_mapIdx.1 hf
    rw [hbin p hp]
    by_cases hp6 : p = 65536
    · rw [if_pos hp6]; show (FP.ofInt 1 : F32).isNaN = false; decide +kernel
    · rw [if_neg hp6]; show (FP.zero : F32).isNaN = false; decide +kernel
  have hf0m : f0 ∈ pts ∧ nz f0 = true := by
    have hfp : f0 ∈ pts := (E.pops_perm pts).mem_iff.1 (by rw [hf0]; simp)
    refine ⟨hfp, ?_⟩
    have hs := E.pops_sorted pts hnorm
    rw [hf0, List.pairwise_cons] at hs
    rw [hf0] at hmem'
    rcases List.mem_cons.1 hmem' with h | h
    · rw [← h]; decide +kernel
    · have h9 := hs.1 _ h
      obtain ⟨p, hp, hpe⟩ := List.mem_mapIdx.1 hfp
      rw [hbin p hp] at hpe
      by_cases hp6 : p = 65536
      · rw [if_pos hp6] at hpe; subst hp6; rw [← hpe]; decide +kernel
      · rw [if_neg hp6] at hpe
        rw [← hpe] at h9
        exact absurd h9 (by show ¬ (FP.zero : F32).lt (FP.ofInt 1 : F32) = false; decide +kernel)
  have hfs : f0 ∈ fs := by
    rw [fftTrim_ok hlaw hm1] at h6
    have h6 := Except.ok.inj h6
    rw [← h6]
    rw [hf0]
    obtain ⟨m, hm⟩ : ∃ m, k = m + 1 := ⟨_, (Nat.succ_pred (by omega)).symm⟩
    rw [hm, List.take_succ_cons, List.takeWhile_cons, if_pos (by exact hf0m.2)]
    simp
  have hval := (hst' f0 hfs).2
  obtain ⟨p, hp, hpe⟩ := List.mem_mapIdx.1 hf0m.1
  rw [hbin p hp] at hpe
  by_cases hp6 : p = 65536
  · subst hp6
    rw [if_pos rfl] at hpe
    have e1 : f0.pos = 0 := by rw [← hpe]; rfl
    have e2 : f0.re = FP.ofInt 1 := by rw [← hpe]; rfl
    have e3 : f0.im = FP.zero := by rw [← hpe]; rfl
    rw [e1, e2, e3] at hval
    have hp64 : 0 < (fftHalf E g).length := by omega
    have h64 := hbin 0 hp64
    rw [if_neg (by decide)] at h64
    have hsl : (E.spectrum g)[0]? = some (fftHalf E g)[0] := by
      rw [← List.getElem?_eq_getElem hp64, fftHalf_eq, List.getElem?_take_of_lt (by
        have : (E.spectrum g).length = g.length := by unfold Ext.spectrum; rw [hlaw.fwd_len]; simp
        omega)]
    rw [hsl, h64] at hval
    exact c32_one_ne (Option.some.inj hval).symm
  · rw [if_neg hp6] at hpe
    have : nz f0 = false := by
      rw [hnz, ← hpe]
      show (!((FP.zero : F32).feq FP.zero && (FP.zero : F32).feq FP.zero)) = false
      decide +kernel
    rw [this] at hf0m
    exact absurd hf0m.2 (by decide)

/-- From 124416 samples on the chunk is extended to at least 131072. -/
theorem padded_131072 {n : Nat} (h : 124416 ≤ n) : 131072 ≤ paddedLen n := by
  have hgt : n < paddedLen n := by unfold paddedLen; rw [if_pos (by omega)]; exact nextSize_gt n
  have hsm : ThreeSmooth (paddedLen n) := by
    unfold paddedLen; rw [if_pos (by omega)]; exact (C33_next_size _).1.2
  obtain ⟨x, y, hxy⟩ := hsm
  by_contra hcon
  have hx : x < 18 := by
    by_contra hx
    have : 2 ^ 18 ≤ 2 ^ x := Nat.pow_le_pow_right (by norm_num) (by omega)
    have : 1 ≤ 3 ^ y := Nat.one_le_pow _ _ (by norm_num)
    nlinarith
  have hy : y < 11 := by
    by_contra hy
    have : 3 ^ 11 ≤ 3 ^ y := Nat.pow_le_pow_right (by norm_num) (by omega)
    have : 1 ≤ 2 ^ x := Nat.one_le_pow _ _ (by norm_num)
    nlinarith
  interval_cases x <;> interval_cases y <;> omega

/-- **C21, beyond the limit, error-bounded compression**: from 124416 samples on (the planner makes frames of 131072) the positions are not faithful: bin 65536 is
stored as position 0.  For every such chunk and every usual bound there is a lawful library for which the frame does not store the spectrum's bins;
with `C21_positions_bounded` the limit is exact. -/
theorem C21_beyond_bounded (data : List F64) (hlen : 124416 ≤ data.length) (hlen' : data.length < 2 ^ 62) (hn : ∀ y ∈ data, y.isNaN = false)
    (a b : F64) (ha : a ∈ data) (hb : b ∈ data) (hab : (FP.cvt a : F32).lt (FP.cvt b : F32) = true)
    (e : F64) (he : e.isFinite = true) (he' : |e.val| ≤ 1000000) :
    ∃ E : Ext, E.Lawful ∧ ∀ g pre, PaddedChunk data g pre →
      ∃ bs, Compressor.fft.compressBounded E data e = .ok bs ∧ ¬ StoresBins (E.spectrum g) bs := by
  refine ⟨Ext.oneBin, Ext.oneBin_lawful, fun g pre hg => ?_⟩
  have hlaw := Ext.oneBin_lawful
  have hne : data ≠ [] := by rintro rfl; simp at ha
  have h1 : 1 ≤ data.length := List.length_pos_of_ne_nil hne
  obtain ⟨rfl, rfl⟩ := hg.unique (C22_padding data hne)
  obtain ⟨st, hst⟩ := stats_ok hne
  have hc := fft_nonconst hn hst ha hb hab
  obtain ⟨c, r, h2, h3, h4, h5⟩ := fft_bounded_cases Ext.oneBin hlaw data hne e st hst
  refine ⟨_, h3, ?_⟩
  rw [h4]
  rcases h5 with ⟨h, _⟩ | ⟨_, h, _⟩ | ⟨_, _, s, ⟨⟨fs, h6, h7⟩, _⟩, _, _, rfl, _⟩
  · rw [hc] at h; exact absurd h (by decide)
  · exact absurd (fft_entered he he') h
  · have hgl := gibbsData_length h1
    have hN := padded_131072 hlen
    have hb3 : 3 ≤ baselinePoints data.length := by unfold baselinePoints; split_ifs <;> omega
    have hhl := fftHalf_length (E := Ext.oneBin) hlaw (data := gibbsData data) (by omega)
    have hlt : paddedLen data.length < 2 ^ 63 := paddedLen_lt h1 hlen'
    obtain ⟨k1, _⟩ := fft_frame_freqs hlaw (by omega) h6 (c0 := Fft.start st) (by omega)
    rw [h7]
    rintro ⟨c', hc', _, hst'⟩
    rw [fft_unwrap _ k1] at hc'
    obtain rfl := Except.ok.inj hc'
    exact oneBin_wraps (by omega) (by omega) h6 hst'

/-- **C21, beyond the limit, plain compression**: from 131072 samples on; with `C21_positions_plain` the limit is exact. -/
theorem C21_beyond_plain (data : List F64) (hlen : 131072 ≤ data.length) (hlen' : data.length < 2 ^ 62) (hn : ∀ y ∈ data, y.isNaN = false)
    (a b : F64) (ha : a ∈ data) (hb : b ∈ data) (hab : (FP.cvt a : F32).lt (FP.cvt b : F32) = true) :
    ∃ E : Ext, E.Lawful ∧ ∃ bs, Compressor.fft.compress E data = .ok bs ∧ ¬ StoresBins (E.spectrum data) bs := by
  refine ⟨Ext.oneBin, Ext.oneBin_lawful, ?_⟩
  have hlaw := Ext.oneBin_lawful
  have hne : data ≠ [] := by rintro rfl; simp at ha
  have h1 : 1 ≤ data.length := List.length_pos_of_ne_nil hne
  obtain ⟨st, hst⟩ := stats_ok hne
  have hc := fft_nonconst hn hst ha hb hab
  obtain ⟨c, h2, ⟨h, rfl⟩ | ⟨_, fs, h4, rfl⟩⟩ := fft_plain_cases Ext.oneBin hlaw data hne st hst
  · rw [hc] at h; exact absurd h (by decide)
  · have hb3 : 3 ≤ baselinePoints data.length := by unfold baselinePoints; split_ifs <;> omega
    have hhl := fftHalf_length (E := Ext.oneBin) hlaw h1
    obtain ⟨k1, _⟩ := fft_frame_freqs hlaw (by omega) h4 (c0 := Fft.start st) (by omega)
    refine ⟨_, h2, ?_⟩
    rintro ⟨c', hc', _, hst'⟩
    rw [fft_unwrap _ k1] at hc'
    obtain rfl := Except.ok.inj hc'
    exact oneBin_wraps hlen (by omega) h4 hst'

example : ∃ data : List F64, data.length = 131072 ∧ (∀ y ∈ data, y.isNaN = false) ∧ F64.lit 1 ∈ data ∧ F64.lit 2 ∈ data ∧
    (FP.cvt (F64.lit 1) : F32).lt (FP.cvt (F64.lit 2) : F32) = true := by
  refine ⟨F64.lit 1 :: List.replicate 131071 (F64.lit 2), ?_, ?_, ?_, ?_, by decide +kernel⟩
  · rw [List.length_cons, List.length_replicate]
  · intro y hy
    rcases List.mem_cons.1 hy with rfl | hy
    · exact lit_not_nan 1
    · rw [List.eq_of_mem_replicate hy]; exact lit_not_nan 2
  · exact List.mem_cons_self
  · exact List.mem_cons_of_mem _ (List.mem_replicate.2 ⟨by norm_num, rfl⟩)


/-! ### C22, C24 -/

theorem round_pos_lt {E : Ext} (hE : E.Lawful) {data : List F64} (hne : data ≠ []) {k : Nat} (hk : k ≠ 1) {fs : List FreqPoint}
    (h : fftTrim E (fftHalf E (gibbsData data)) k = .ok fs) : ∀ f ∈ fs, f.pos < (gibbsData data).length := by
  have h1 : 1 ≤ data.length := List.length_pos_of_ne_nil hne
  have hgl := gibbsData_length h1
  have hge := paddedLen_ge data.length
  have hhl := fftHalf_length (E := E) hE (data := gibbsData data) (by omega)
  obtain ⟨_, _, h3⟩ := fftTrim_bins hE hk h
  intro f hf
  have := (isBin_pos (h3 f hf)).1
  omega

/-- What a bounded frame of a chunk with (single precision) distinct samples is: the reported error is the error, over the
extended chunk `g`, of the series `full` rebuilt from the stored frequencies with one inverse transform of the length of `g`,
and decompression returns the window of `full` where the chunk sits in `g`. -/
structure FrameOf (E : Ext) (data : List F64) (r : CResult) : Prop where
  ex : ∃ g pre full buf scale, PaddedChunk data g pre ∧ (g.drop pre).take data.length = data ∧ buf.length = g.length ∧
    full = (E.fftInv buf).map scale ∧ full.length = g.length ∧ calculateError g full = .ok r.error ∧
    Compressor.fft.decompress E data.length r.data = .ok ((full.drop pre).take data.length)

/-- C22 and C24: the bounded FFT path decodes with the transform length it encoded with, the window it keeps is exactly where
the original samples sit in the extended chunk, and the error it reports is that of the rebuilt extended chunk.
Chunks whose samples all collapse to one single-precision value are excluded (`C24_refuted_collapsed`). -/
theorem C22_window (E : Ext) (hE : E.Lawful) (data : List F64) (hlen : data.length < 2 ^ 62) (hn : ∀ y ∈ data, y.isNaN = false)
    (a b : F64) (ha : a ∈ data) (hb : b ∈ data) (hab : (FP.cvt a : F32).lt (FP.cvt b : F32) = true)
    (e : F64) (he : e.isFinite = true) (he' : |e.val| ≤ 1000000) :
    ∃ r, Compressor.fft.boundedResults E data e = .ok r ∧ Compressor.fft.compressBounded E data e = .ok r.data ∧ FrameOf E data r := by
  have hne : data ≠ [] := by rintro rfl; simp at ha
  have h1 : 1 ≤ data.length := List.length_pos_of_ne_nil hne
  obtain ⟨st, hst⟩ := stats_ok hne
  have hc := fft_nonconst hn hst ha hb hab
  obtain ⟨c, r, h2, h3, h4, h5⟩ := fft_bounded_cases E hE data hne e st hst
  refine ⟨r, h2, h3, ?_⟩
  rcases h5 with ⟨h, _⟩ | ⟨_, h, _⟩ | ⟨_, _, s, ⟨⟨fs, h6, h7⟩, out, h8, h9⟩, _, _, rfl, h10⟩
  · rw [hc] at h; exact absurd h (by decide)
  · exact absurd (fft_entered he he') h
  · have hgl := gibbsData_length h1
    have hge := paddedLen_ge data.length
    have hlt := paddedLen_lt h1 hlen
    have hhl := fftHalf_length (E := E) hE (data := gibbsData data) (by omega)
    have hb3 : 3 ≤ baselinePoints data.length := by unfold baselinePoints; split_ifs <;> omega
    obtain ⟨k1, _⟩ := fft_frame_freqs hE (by omega) h6 (c0 := Fft.start st) (by omega)
    have hpos := round_pos_lt hE hne (by omega) h6
    rw [h7] at h8 h4
    set c : Fft := { Fft.start st with frequencies := fs } with hcdef
    obtain ⟨m, hm1, hm2⟩ := getMirrored_ok c (gibbsData data).length hpos
    have hout : out = (E.fftInv m).map fun f => c.round (f.re.div (FP.ofInt (gibbsData data).length)) 5 := by
      unfold Fft.reconstruct at h8
      rw [hm1, ok_bind] at h8
      exact (Except.ok.inj h8).symm
    refine ⟨⟨gibbsData data, padBefore data.length, out, m, _, C22_padding data hne, gibbsData_window h1, hm2, hout, ?_, ?_, ?_⟩⟩
    · rw [hout, List.length_map, hE.inv_len, hm2]
    · rw [h10]; exact h9
    · rw [h4]
      simp only [Compressor.decompress, fftToData]
      rw [fft_unwrap c k1, ok_bind]
      have : ({ c with error := none } : Fft) = c := rfl
      rw [this, toData_window E hE c _ (by exact hc), ← hgl, h8, ok_bind]

/-- C24: the search of the bounded FFT compressor ends after at most 23 rounds, for every chunk and bound (allowing more rounds
changes nothing). -/
theorem C24_terminates (E : Ext) (hE : E.Lawful) (c : Fft) (data : List F64) (hne : data ≠ []) (e : F64) (fuel : Nat) (hf : 23 ≤ fuel) :
    ∃ s, Fft.loop E (gibbsData data) (fftHalf E (gibbsData data)) (baselinePoints data.length) e fuel
        { c := c, err := e.add (F64.lit 1), jump := 0, iterations := 0 } = .ok s ∧ s.iterations ≤ 23 := by
  have h1 : 1 ≤ data.length := List.length_pos_of_ne_nil hne
  by_cases hent : milli e < milli (e.add (F64.lit 1))
  · have hgl := gibbsData_length h1
    have hge := paddedLen_ge data.length
    have hh : (fftHalf E (gibbsData data)).length ≤ (gibbsData data).length := by
      rw [fftHalf_length hE (by omega)]; omega
    obtain ⟨s, h2, _, _, h4⟩ := fft_loop E hE c (gibbsData data) (fftHalf E (gibbsData data)) hh (baselinePoints data.length)
      (by unfold baselinePoints; split_ifs <;> omega) e fuel { c := c, err := e.add (F64.lit 1), jump := 0, iterations := 0 }
      (Nat.zero_le _) (by show 23 ≤ fuel + 0; omega) (by simp [fftJump]) (Or.inr ⟨rfl, hent⟩)
    exact ⟨s, h2, by omega⟩
  · refine ⟨{ c := c, err := e.add (F64.lit 1), jump := 0, iterations := 0 }, ?_, Nat.zero_le _⟩
    unfold Fft.loop
    rw [if_neg hent]

/-- C24: the reported error is the error of the decoded frequencies over the extended chunk. -/
theorem C24_reported_error (E : Ext) (hE : E.Lawful) (data : List F64) (hlen : data.length < 2 ^ 62) (hn : ∀ y ∈ data, y.isNaN = false)
    (a b : F64) (ha : a ∈ data) (hb : b ∈ data) (hab : (FP.cvt a : F32).lt (FP.cvt b : F32) = true)
    (e : F64) (he : e.isFinite = true) (he' : |e.val| ≤ 1000000) :
    ∃ r g full pre, Compressor.fft.boundedResults E data e = .ok r ∧ PaddedChunk data g pre ∧ calculateError g full = .ok r.error ∧
      Compressor.fft.decompress E data.length r.data = .ok ((full.drop pre).take data.length) ∧
      (data.length < 128 → calculateError data full = .ok r.error ∧ Compressor.fft.decompress E data.length r.data = .ok full) := by
  obtain ⟨r, h1, _, ⟨g, pre, full, buf, scale, p1, p2, p3, p4, p5, p6, p7⟩⟩ := C22_window E hE data hlen hn a b ha hb hab e he he'
  refine ⟨r, g, full, pre, h1, p1, p6, p7, fun h128 => ?_⟩
  rcases p1 with ⟨_, rfl, rfl⟩ | ⟨h, _⟩
  · refine ⟨p6, ?_⟩
    rw [p7, List.drop_zero, List.take_of_length_le (by omega)]
  · omega

/-- A chunk whose two samples differ but are one single-precision number. -/
def collapsedPair : List F64 := [F64.lit 16777216, F64.lit 16777217]

/-- C24 refuted: for that chunk the compressor reports error 0 whatever the bound, and decompression returns the
first sample twice. -/
theorem C24_refuted_collapsed (E : Ext) (e : F64) : ∃ r, Compressor.fft.boundedResults E collapsedPair e = .ok r ∧ r.error = FP.zero ∧
    Compressor.fft.decompress E 2 r.data = .ok [F64.lit 16777216, F64.lit 16777216] ∧ (F64.lit 16777216).feq (F64.lit 16777217) = false := by
  have h : okAnd (DataStats.new collapsedPair) (fun st => (Fft.start st).maxValue.feq (Fft.start st).minValue &&
      decide ((FP.cvt (Fft.start st).maxValue : F64) = F64.lit 16777216)) = true := by decide +kernel
  obtain ⟨st, hst, h⟩ := okAnd_iff.1 h
  rw [Bool.and_eq_true, decide_eq_true_eq] at h
  refine ⟨{ data := (Fft.start st).enc, error := FP.zero }, ?_, rfl, ?_, by decide +kernel⟩
  · have : (Fft.new st.min st.max).compressBounded E collapsedPair e = .ok (Fft.start st) := by
      unfold Fft.compressBounded
      rw [if_pos (by exact h.1)]; rfl
    simp only [Compressor.boundedResults, hst, ok_bind, fftCompressor, this]
    rfl
  · simp only [Compressor.decompress, fftToData]
    rw [fft_unwrap _ (fftOk_nil st), ok_bind]
    unfold Fft.toData
    rw [if_pos (by exact h.1)]
    show Except.ok (List.replicate 2 (FP.cvt (Fft.start st).maxValue : F64)) = _
    rw [h.2]; rfl

/-! ### C23 -/

theorem takeWhile_take_spec {α : Type} (p : α → Bool) (l : List α) (k : Nat) :
    ∃ rest, l = (l.take k).takeWhile p ++ rest ∧ (∀ x ∈ (l.take k).takeWhile p, p x = true) ∧
      (((l.take k).takeWhile p).length < k → rest ≠ [] → ∃ x ∈ rest, p x = false) := by
  induction l generalizing k with
  | nil => exact ⟨[], by simp, by simp, by simp⟩
  | cons a l ih =>
    cases k with
    | zero => exact ⟨a :: l, by simp, by simp, by simp⟩
    | succ k =>
      rw [List.take_succ_cons, List.takeWhile_cons]
      cases ha : p a with
      | false => exact ⟨a :: l, by simp, by simp, fun _ _ => ⟨a, by simp, ha⟩⟩
      | true =>
        obtain ⟨rest, h1, h2, h3⟩ := ih k
        refine ⟨rest, ?_, ?_, ?_⟩
        · simp only [if_true, List.cons_append]
          rw [← h1]
        · intro x hx
          simp only [if_true, List.mem_cons] at hx
          rcases hx with rfl | hx
          · exact ha
          · exact h2 x hx
        · intro hl hr
          simp only [if_true, List.length_cons] at hl
          exact h3 (by omega) hr

/-- The frequencies of the first half of a spectrum (positions cut to the 16 bits of the field). -/
def bins (sp : List C32) : List FreqPoint :=
  (sp.take (sp.length / 2 + 1)).mapIdx fun p b => { pos := p % 65536, re := b.re, im := b.im }

theorem fftTrim_largest {E : Ext} (hE : E.Lawful) {g : List F64} {k : Nat} (hk : k ≠ 1)
    (hnorm : ∀ c ∈ E.spectrum g, (E.norm c).isNaN = false)
    {fs : List FreqPoint} (h : fftTrim E (fftHalf E g) k = .ok fs) :
    Largest (fun f => E.norm { re := f.re, im := f.im }) k (bins (E.spectrum g)) fs := by
  have hlen := (fftTrim_bins hE hk h).1
  rw [fftTrim_ok hE hk] at h
  have h := Except.ok.inj h
  have hb : (fftHalf E g).mapIdx (fun pos b => FreqPoint.of b pos) = bins (E.spectrum g) := rfl
  rw [hb] at h
  set l := E.heapPops (bins (E.spectrum g)) with hl
  obtain ⟨rest, h1, h2, h3⟩ := takeWhile_take_spec (fun f : FreqPoint => !(f.im.feq FP.zero && f.re.feq FP.zero)) l k
  rw [h] at h1 h2 h3
  have hpw : l.Pairwise fun a b => (E.norm a.toComplex).lt (E.norm b.toComplex) = false := by
    apply E.pops_sorted
    intro f hf
    obtain ⟨p, hp, rfl⟩ := List.mem_mapIdx.1 hf
    exact hnorm _ (List.mem_of_mem_take (List.getElem_mem hp))
  refine ⟨hlen, ?_, rest, ?_, ?_, ?_⟩
  · rintro f hf ⟨e1, e2⟩
    have := h2 f hf
    rw [e1, e2] at this
    exact absurd this (by decide)
  · rw [← h1]; exact E.pops_perm _
  · rw [h1, List.pairwise_append] at hpw
    exact hpw.2.2
  · intro a b
    obtain ⟨x, hx, hx2⟩ := h3 a b
    refine ⟨x, hx, ?_⟩
    simp only [Bool.not_eq_false', Bool.and_eq_true] at hx2
    exact ⟨hx2.2, hx2.1⟩

/-- A set of frequencies is what the frame decodes to. -/
def DecodesTo (bs : Bytes) (fs : List FreqPoint) : Prop := ∃ c, unwrapDec Fft.dec bs = .ok c ∧ c.frequencies = fs

/-- C23, bounded compression: the frame stores at most as many frequencies as the last round asked for, they are non-zero
bins of the spectrum of the extended chunk, and no dropped bin has a larger norm than a stored one. -/
theorem C23_largest_bounded (E : Ext) (hE : E.Lawful) (data : List F64) (hlen : data.length < 2 ^ 62)
    (hn : ∀ y ∈ data, y.isNaN = false)
    (a b : F64) (ha : a ∈ data) (hb : b ∈ data) (hab : (FP.cvt a : F32).lt (FP.cvt b : F32) = true)
    (e : F64) (he : e.isFinite = true) (he' : |e.val| ≤ 1000000) (g : List F64) (pre : Nat) (hg : PaddedChunk data g pre)
    (hnorm : ∀ c ∈ E.spectrum g, (E.norm c).isNaN = false) :
    ∃ bs fs k, Compressor.fft.compressBounded E data e = .ok bs ∧ DecodesTo bs fs ∧ 3 ≤ k ∧
      Largest (fun f => E.norm { re := f.re, im := f.im }) k (bins (E.spectrum g)) fs := by
  have hne : data ≠ [] := by rintro rfl; simp at ha
  have h1 : 1 ≤ data.length := List.length_pos_of_ne_nil hne
  obtain ⟨rfl, rfl⟩ := hg.unique (C22_padding data hne)
  obtain ⟨st, hst⟩ := stats_ok hne
  have hc := fft_nonconst hn hst ha hb hab
  obtain ⟨c, r, h2, h3, h4, h5⟩ := fft_bounded_cases E hE data hne e st hst
  rcases h5 with ⟨h, _⟩ | ⟨_, h, _⟩ | ⟨_, _, s, ⟨⟨fs, h6, h7⟩, _⟩, _, _, rfl, h10⟩
  · rw [hc] at h; exact absurd h (by decide)
  · exact absurd (fft_entered he he') h
  · have hgl := gibbsData_length h1
    have hge := paddedLen_ge data.length
    have hlt := paddedLen_lt h1 hlen
    have hhl := fftHalf_length (E := E) hE (data := gibbsData data) (by omega)
    have hb3 : 3 ≤ baselinePoints data.length := by unfold baselinePoints; split_ifs <;> omega
    obtain ⟨k1, _⟩ := fft_frame_freqs hE (by omega) h6 (c0 := Fft.start st) (by omega)
    refine ⟨_, fs, _, h3, ⟨_, by rw [h4, h7]; exact fft_unwrap _ k1, rfl⟩, ?_, fftTrim_largest hE (by omega) hnorm h6⟩
    omega

/-- C23, plain compression: the count asked for is `max(3, n / 100)`. -/
theorem C23_largest_plain (E : Ext) (hE : E.Lawful) (data : List F64) (hlen : data.length < 2 ^ 62)
    (hn : ∀ y ∈ data, y.isNaN = false)
    (a b : F64) (ha : a ∈ data) (hb : b ∈ data) (hab : (FP.cvt a : F32).lt (FP.cvt b : F32) = true)
    (hnorm : ∀ c ∈ E.spectrum data, (E.norm c).isNaN = false) :
    ∃ bs fs, Compressor.fft.compress E data = .ok bs ∧ DecodesTo bs fs ∧
      Largest (fun f => E.norm { re := f.re, im := f.im }) (max 3 (data.length / 100)) (bins (E.spectrum data)) fs := by
  have hne : data ≠ [] := by rintro rfl; simp at ha
  have h1 : 1 ≤ data.length := List.length_pos_of_ne_nil hne
  obtain ⟨st, hst⟩ := stats_ok hne
  have hc := fft_nonconst hn hst ha hb hab
  have hbm : max 3 (data.length / 100) = baselinePoints data.length := by unfold baselinePoints; split_ifs <;> omega
  rw [hbm]
  obtain ⟨c, h2, ⟨h, rfl⟩ | ⟨_, fs, h4, rfl⟩⟩ := fft_plain_cases E hE data hne st hst
  · rw [hc] at h; exact absurd h (by decide)
  · have hk : baselinePoints data.length ≠ 1 := by unfold baselinePoints; split_ifs <;> omega
    have hhl := fftHalf_length hE h1
    obtain ⟨k1, _⟩ := fft_frame_freqs hE hk h4 (c0 := Fft.start st) (by omega)
    exact ⟨_, fs, h2, ⟨_, fft_unwrap _ k1, rfl⟩, fftTrim_largest hE hk hnorm h4⟩

/-- C23, `fft_set`: an explicit count `k` of frequencies; asking for one stores the constant bin whatever its size. -/
theorem C23_fft_set (E : Ext) (hE : E.Lawful) (data : List F64) (hlen : data.length < 2 ^ 62)
    (hn : ∀ y ∈ data, y.isNaN = false)
    (a b : F64) (ha : a ∈ data) (hb : b ∈ data) (hab : (FP.cvt a : F32).lt (FP.cvt b : F32) = true)
    (hnorm : ∀ c ∈ E.spectrum data, (E.norm c).isNaN = false) (k : Nat) :
    ∃ bs fs, fftSet E data k = .ok bs ∧ DecodesTo bs fs ∧
      ((k ≠ 1 ∧ Largest (fun f => E.norm { re := f.re, im := f.im }) k (bins (E.spectrum data)) fs) ∨
       (k = 1 ∧ ∃ c, (E.spectrum data)[0]? = some c ∧ fs = [{ pos := 0, re := c.re, im := c.im }])) := by
  have hne : data ≠ [] := by rintro rfl; simp at ha
  have h1 : 1 ≤ data.length := List.length_pos_of_ne_nil hne
  obtain ⟨st, hst⟩ := stats_ok hne
  have hc := fft_nonconst hn hst ha hb hab
  obtain ⟨d0, r, rfl⟩ := List.exists_cons_of_ne_nil hne
  have hm := minMax_stats hst
  have hset : fftSet E (d0 :: r) k = (fftTrim E (fftHalf E (d0 :: r)) k >>= fun fs => .ok ({ Fft.start st with frequencies := fs } : Fft).enc) := by
    simp only [fftSet, hm]
    unfold Fft.compressHinted
    rw [if_neg (by show ¬ (Fft.start st).maxValue.feq (Fft.start st).minValue = true; rw [hc]; decide)]
    simp only [bind_assoc]
    rfl
  rw [hset]
  have hhl := fftHalf_length hE h1
  by_cases hk : k = 1
  · have h0 : 0 < (fftHalf E (d0 :: r)).length := by omega
    have htr : fftTrim E (fftHalf E (d0 :: r)) k = .ok [FreqPoint.of (fftHalf E (d0 :: r))[0] 0] := by
      unfold fftTrim
      rw [if_pos hk]
      revert h0
      generalize fftHalf E (d0 :: r) = half
      intro h0
      cases half with
      | nil => exact absurd h0 (by simp)
      | cons c cs => simp
    rw [htr, ok_bind]
    refine ⟨_, _, rfl, ⟨_, fft_unwrap _ ⟨by simp, ?_⟩, rfl⟩, Or.inr ⟨hk, (fftHalf E (d0 :: r))[0], ?_, rfl⟩⟩
    · intro f hf
      simp only [List.mem_singleton] at hf
      subst hf
      show 0 % 65536 < 2 ^ 16
      omega
    · rw [← List.getElem?_eq_getElem h0, fftHalf_eq, List.getElem?_take_of_lt (by omega)]
  · have htr := fftTrim_ok hE (half := fftHalf E (d0 :: r)) hk
    obtain ⟨k1, _⟩ := fft_frame_freqs hE hk htr (c0 := Fft.start st) (by omega)
    rw [htr, ok_bind]
    exact ⟨_, _, rfl, ⟨_, fft_unwrap _ k1, rfl⟩, Or.inl ⟨hk, fftTrim_largest hE hk hnorm htr⟩⟩

/-- A library satisfying the laws used above: identity transforms and a norm. -/
def Ext.sorting : Ext := { Ext.dummy with norm := fun c => c.re.abs }

theorem Ext.sorting_laws : Ext.sorting.Lawful := ⟨fun _ => rfl, fun _ => rfl⟩

example : (∀ c ∈ Ext.sorting.spectrum rampData, (Ext.sorting.norm c).isNaN = false) ∧
    (FP.cvt (F64.lit 1) : F32).lt (FP.cvt (F64.lit 2) : F32) = true ∧ PaddedChunk rampData rampData 0 :=
  ⟨by decide +kernel, by decide +kernel, Or.inl ⟨by decide, rfl, rfl⟩⟩

/-! ### C58 for FFT -/

/-- The number of frequencies the last (23rd) round asks for, for a chunk of `n` samples. -/
def lastRoundCount (n : Nat) : Nat :=
  max 3 (n / 100) + (17 * max (max 3 (n / 100) / 2) 1 + 5 * max (max 3 (n / 100) / 10) 1)

/-- `fs` are as many frequencies as the last round may store: the full count, or every non-zero bin it got to. -/
def UsedUp (sp : List C32) (k : Nat) (fs : List FreqPoint) : Prop :=
  fs.length ≤ k ∧ ∃ dropped, (fs ++ dropped).Perm (bins sp) ∧
    (fs.length = k ∨ dropped = [] ∨ ∃ g ∈ dropped, g.re.feq FP.zero = true ∧ g.im.feq FP.zero = true)

/-- C58 for FFT (the part that holds): the error of the rebuilt extended chunk is NaN, or at most the bound plus 0.0011, or all
23 rounds were used up.  Missing: the first and last case do not meet the bound (`C58_refuted_fft_zero`, `C58_refuted_fft_rounds`),
and from 128 samples on the error is measured over the extended chunk. -/
theorem C58_fft_bound_partial (E : Ext) (hE : E.Lawful) (data : List F64) (hlen : data.length < 2 ^ 62)
    (hn : ∀ y ∈ data, y.isNaN = false)
    (a b : F64) (ha : a ∈ data) (hb : b ∈ data) (hab : (FP.cvt a : F32).lt (FP.cvt b : F32) = true)
    (e : F64) (he : e.isFinite = true) (he0 : 0 ≤ e.val) (he' : e.val ≤ 1000000) :
    ∃ r g pre full, Compressor.fft.boundedResults E data e = .ok r ∧ PaddedChunk data g pre ∧ calculateError g full = .ok r.error ∧
      Compressor.fft.decompress E data.length r.data = .ok ((full.drop pre).take data.length) ∧
      (r.error.isNaN = true ∨ (r.error.isFinite = true ∧ r.error.val ≤ e.val + 11 / 10000) ∨
        ∃ fs, DecodesTo r.data fs ∧ UsedUp (E.spectrum g) (lastRoundCount data.length) fs) := by
  have hne : data ≠ [] := by rintro rfl; simp at ha
  have h1 : 1 ≤ data.length := List.length_pos_of_ne_nil hne
  have habs : |e.val| ≤ 1000000 := by rw [abs_of_nonneg he0]; exact he'
  obtain ⟨r, q1, _, ⟨g, pre, full, buf, scale, p1, p2, p3, p4, p5, p6, p7⟩⟩ := C22_window E hE data hlen hn a b ha hb hab e he habs
  refine ⟨r, g, pre, full, q1, p1, p6, p7, ?_⟩
  cases hnan : r.error.isNaN with
  | true => exact Or.inl rfl
  | false =>
    right
    have hsign : r.error.sign = false := by
      rcases C29_never_negative .mape g full r.error p6 with h | h
      · rw [hnan] at h; exact absurd h (by decide)
      · exact h.1
    obtain ⟨rfl, rfl⟩ := p1.unique (C22_padding data hne)
    obtain ⟨st, hst⟩ := stats_ok hne
    have hc := fft_nonconst hn hst ha hb hab
    obtain ⟨c, r', h2, h3, h4, h5⟩ := fft_bounded_cases E hE data hne e st hst
    rw [q1] at h2
    obtain rfl := Except.ok.inj h2
    rcases h5 with ⟨h, _⟩ | ⟨_, h, _⟩ | ⟨_, _, s, ⟨⟨fs, h6, h7⟩, _⟩, _, h9, rfl, h10⟩
    · rw [hc] at h; exact absurd h (by decide)
    · exact absurd (fft_entered he habs) h
    · rcases h9 with ⟨_, h9⟩ | h9
      · left
        rw [← h10] at h9
        exact fft_stop_test he he0 he' hnan hsign h9
      · right
        have hgl := gibbsData_length h1
        have hge := paddedLen_ge data.length
        have hlt := paddedLen_lt h1 hlen
        have hhl := fftHalf_length (E := E) hE (data := gibbsData data) (by omega)
        have hbm : baselinePoints data.length = max 3 (data.length / 100) := by unfold baselinePoints; split_ifs <;> omega
        have hb3 : 3 ≤ baselinePoints data.length := by omega
        have hk : baselinePoints data.length + fftJump (baselinePoints data.length) (s.iterations - 1) = lastRoundCount data.length := by
          rw [h9, hbm]
          unfold fftJump lastRoundCount
          simp only [Nat.max_def]
          norm_num
        obtain ⟨k1, _⟩ := fft_frame_freqs hE (by omega) h6 (c0 := Fft.start st) (by omega)
        have hk1 : lastRoundCount data.length ≠ 1 := by omega
        rw [hk] at h6
        refine ⟨fs, ⟨_, by rw [h4, h7]; exact fft_unwrap _ k1, rfl⟩, (fftTrim_bins hE hk1 h6).1, ?_⟩
        rw [fftTrim_ok hE hk1] at h6
        have h6 := Except.ok.inj h6
        obtain ⟨rest, r1, _, r3⟩ := takeWhile_take_spec (fun f : FreqPoint => !(f.im.feq FP.zero && f.re.feq FP.zero))
          (E.heapPops (bins (E.spectrum (gibbsData data)))) (lastRoundCount data.length)
        have h6' : ((E.heapPops (bins (E.spectrum (gibbsData data)))).take (lastRoundCount data.length)).takeWhile
          (fun f : FreqPoint => !(f.im.feq FP.zero && f.re.feq FP.zero)) = fs := h6
        rw [h6'] at r1 r3
        refine ⟨rest, by rw [← r1]; exact E.pops_perm _, ?_⟩
        by_cases hfl : fs.length < lastRoundCount data.length
        · by_cases hr : rest = []
          · exact Or.inr (Or.inl hr)
          · obtain ⟨x, hx, hx2⟩ := r3 hfl hr
            simp only [Bool.not_eq_false', Bool.and_eq_true] at hx2
            exact Or.inr (Or.inr ⟨x, hx, hx2.2, hx2.1⟩)
        · left
          have : fs.length ≤ lastRoundCount data.length := by
            rw [← h6']; exact le_trans (List.takeWhile_sublist _).length_le (List.length_take_le _ _)
          omega

/-- 0, 1 -/
def zeroOne : List F64 := [F64.lit 0, F64.lit 1]
/-- 1, 2 -/
def oneTwo : List F64 := [F64.lit 1, F64.lit 2]

/-- A library whose transforms return zeros. -/
def Ext.zeros : Ext := { Ext.dummy with fftFwd := fun b => b.map fun _ => { re := FP.zero, im := FP.zero } }

theorem Ext.zeros_lawful : Ext.zeros.Lawful := ⟨fun b => by simp [Ext.zeros], fun _ => rfl⟩

/-- C58 is false for FFT: a zero sample reproduced exactly makes the error NaN and ends the search; with bound 0 the chunk
0, 1 comes back as 0, 0 (for a lawful choice of the transform). -/
theorem C58_refuted_fft_zero : Ext.zeros.Lawful ∧ ∃ r, Compressor.fft.boundedResults Ext.zeros zeroOne (F64.lit 0) = .ok r ∧
    r.error.isNaN = true ∧ Compressor.fft.decompress Ext.zeros 2 r.data = .ok [FP.zero, FP.zero] := by
  refine ⟨Ext.zeros_lawful, ?_⟩
  have h : okAnd (Compressor.fft.boundedResults Ext.zeros zeroOne (F64.lit 0)) (fun r => r.error.isNaN &&
    okAnd (Compressor.fft.decompress Ext.zeros 2 r.data) (fun out => decide (out = [FP.zero, FP.zero]))) = true := by decide +kernel
  obtain ⟨r, h1, h⟩ := okAnd_iff.1 h
  rw [Bool.and_eq_true] at h
  obtain ⟨out, h2, h3⟩ := okAnd_iff.1 h.2
  rw [decide_eq_true_eq] at h3
  exact ⟨r, h1, h.1, by rw [h2, h3]⟩

/-- C58 is false for FFT: when 23 rounds are not enough the last one is stored whatever its error (here 50% over bound 0). -/
theorem C58_refuted_fft_rounds : ∃ r out, Compressor.fft.boundedResults Ext.zeros oneTwo (F64.lit 0) = .ok r ∧
    Compressor.fft.decompress Ext.zeros 2 r.data = .ok out ∧ calculateError oneTwo out = .ok r.error ∧ (FP.zero : F64).lt r.error = true := by
  have h : okAnd (Compressor.fft.boundedResults Ext.zeros oneTwo (F64.lit 0)) (fun r =>
    okAnd (Compressor.fft.decompress Ext.zeros 2 r.data) (fun out => okAnd (calculateError oneTwo out) (fun x => decide (x = r.error) &&
      (FP.zero : F64).lt r.error))) = true := by decide +kernel
  obtain ⟨r, h1, h⟩ := okAnd_iff.1 h
  obtain ⟨out, h2, h⟩ := okAnd_iff.1 h
  obtain ⟨x, h3, h⟩ := okAnd_iff.1 h
  rw [Bool.and_eq_true, decide_eq_true_eq] at h
  exact ⟨r, out, h1, h2, by rw [h3, h.1], h.2⟩

end Atsc
