import Verif.Props.Default
/- C58 and C89 for samples that keep away from zero: the excluded cases disappear. -/
namespace Atsc
open FP

/-- Samples kept to five decimals, none closer to zero than 0.01: the mean absolute percentage error is below 0.0006. -/
theorem mape_5decimals {c out : List F64} (h1 : 1 ≤ c.length) (h : SameTo5Decimals c out) (hb : ∀ x ∈ c, 1 / 100 ≤ |x.val|) : exactMape c out ≤ 6 / 10000 := by
  unfold exactMape
  rw [div_le_iff₀ (by exact_mod_cast h1)]
  obtain ⟨hl, h⟩ := h
  clear h1
  induction c generalizing out with
  | nil => simp
  | cons a c ih =>
    cases out with
    | nil => simp at hl
    | cons b out =>
      rw [List.zipWith_cons_cons, List.sum_cons, List.length_cons]
      have h0 := h 0 (by simp) (by simp)
      have hi := ih (out := out) (fun x hx => hb x (by simp [hx])) (by simpa using hl) (fun i u1 u2 => h (i + 1) (by simpa using u1) (by simpa using u2))
      have ha := hb a (by simp)
      simp only [List.getElem_cons_zero] at h0
      have hp : 0 < |a.val| := lt_of_lt_of_le (by norm_num) ha
      have : |(b.val - a.val) / a.val| ≤ 6 / 10000 := by
        rw [abs_div, div_le_iff₀ hp]
        refine le_trans h0 ?_
        generalize |a.val| = u at *
        norm_num
        linarith
      push_cast
      linarith

/-- What uncompressing gives back of one chunk whose samples keep away from zero: a NaN sample (from the interpolation library), or finite samples whose mean absolute
percentage error is at most `pct` percent plus 0.0008. -/
def MeetsBound (pct : Nat) (c out : List F64) : Prop :=
  out.length = c.length ∧ ((∃ v ∈ out, v.isNaN = true) ∨ (AllFinite out ∧ exactMape c out ≤ (pct : ℚ) / 100 + 8 / 10000))

theorem poly_chunk_away (E : Ext) (hI : E.Interpolates) (ty : PolyType) (c : List F64) (hne : c ≠ []) (hlen : c.length ≤ 131072)
    (hf : AllFinite c) (hr : ∀ x ∈ c, InRange x) (hb : ∀ x ∈ c, 1 / 100 ≤ |x.val|) (pct : Nat) (hp : pct ≤ 50) :
    ∃ bs out, ty.comp.compressBounded E c (FP.cvt ((FP.ofInt (pct : Int) : F32).div (FP.ofInt 100)) : F64) = .ok bs ∧
      ty.comp.decompress E c.length bs = .ok out ∧ MeetsBound pct c out := by
  have hn : ∀ y ∈ c, y.isNaN = false := fun y hy => isFinite_not_nan (hf y hy)
  have hn1 : 1 ≤ c.length := List.length_pos_of_ne_nil hne
  have hz : ∀ x ∈ c, x.val ≠ 0 := by
    intro x hx h
    have := hb x hx
    rw [h, abs_zero] at this
    norm_num at this
  have hpq : (pct : ℚ) ≤ 50 := by exact_mod_cast hp
  have hp0 : (0 : ℚ) ≤ pct := Nat.cast_nonneg _
  obtain ⟨bs, out, h1, h2, h3, h4⟩ := poly_chunk_meets E hI ty c hne hlen hf hr (fun x hx h => absurd h (hz x hx)) pct hp
  obtain ⟨bs', out', q1, q2, q3, q4⟩ := C17_range_bounded E ty c hne (lt_of_le_of_lt hlen (by norm_num)) hn (FP.cvt ((FP.ofInt (pct : Int) : F32).div (FP.ofInt 100)) : F64)
  rw [h1] at q1; obtain rfl := Except.ok.inj q1
  rw [h2] at q2; obtain rfl := Except.ok.inj q2
  refine ⟨bs, out, h1, h2, h3, ?_⟩
  by_cases hN : ∃ v ∈ out, v.isNaN = true
  · exact Or.inl hN
  have hfin : ∀ y ∈ out, y.isNaN = false → y.isFinite = true ∧ |y.val| ≤ 2 ^ 64 := by
    intro y hy hyn
    obtain ⟨⟨a, ha, k1⟩, ⟨b, hb, k2⟩⟩ := q4 y hy hyn
    exact between_finite (hf a ha) (hf b hb) (le_trans (inRange_abs (hr a ha)) (qpow_le (by norm_num)))
      (le_trans (inRange_abs (hr b hb)) (qpow_le (by norm_num))) k1 k2
  have hfo : AllFinite out := fun y hy => (hfin y hy (by rw [Bool.eq_false_iff]; exact fun h => hN ⟨y, hy, h⟩)).1
  right
  refine ⟨hfo, ?_⟩
  rcases h4 with h4 | h4 | ⟨i, i1, i2, i3, -⟩ | ⟨err, g1, g2, g3⟩
  · have := mape_5decimals hn1 h4 hb
    norm_num at this ⊢
    linarith
  · exact absurd h4 hN
  · exact absurd i3 (hz _ (List.getElem_mem i1))
  · have hen : err.isNaN = false := isFinite_not_nan g2
    obtain ⟨-, -, m3⟩ := mape_exact h3.symm hn1 (le_trans hlen (by norm_num)) hf hr hfin g2 (by norm_num at g3; linarith) g1 (le_iff.2 ⟨hen, hen, le_refl _⟩)
    refine le_trans m3 ?_
    norm_num at g3 ⊢
    linarith

/-- C58 at the command line, Polynomial and IDW, samples at least 0.01 away from zero (the part that holds): no excluded case is left but NaN from the interpolation library;
the bound is exceeded by 0.0008 at most. -/
theorem C58_cli_away_partial (E : Ext) (hE : E.Lawful) (hI : E.Interpolates) (p : Profile) (data : List F64) (a : CompArgs) (ha : a.Valid) (hp : FewEnough p data)
    (hc : a.compressor = .polynomial ∨ a.compressor = .idw) (hr : ∀ x ∈ data, x.isFinite = true → InRange x ∧ 1 / 100 ≤ |x.val|) :
    ∃ bs, compressData E p data a = .ok bs ∧
      (bs.length < 2 ^ 64 → ∃ chunks outs, chunks.flatten = finiteSamples data ∧ decompressData E bs = .ok outs.flatten ∧
        List.Forall₂ (MeetsBound a.error) chunks outs) := by
  obtain ⟨ex, s, h1, h2, h3, h4, h5⟩ := pipeline E hE p data a ha hp
  refine ⟨_, h2, fun hl => ?_⟩
  rw [decompressData_ok h1 (fun x hx => (h4 x hx).2.2.1) hl, ← h3]
  obtain ⟨ty, hty⟩ : ∃ ty : PolyType, ∀ c e k, a.compressor.call c e k = .bounded c ty.comp e k := by
    rcases hc with hc | hc
    · exact ⟨.polynomial, fun c e k => by rw [hc]; rfl⟩
    · exact ⟨.idw, fun c e k => by rw [hc]; rfl⟩
  obtain ⟨outs, o1, o2⟩ := concat_outs (E := E) (p := p) (a := a) (MeetsBound a.error) ex (fun x hx => by
    obtain ⟨q1, q2, q3, q4⟩ := h4 x hx
    have hmem : ∀ y ∈ x.2, y ∈ data := by
      intro y hy
      have : y ∈ (ex.map Prod.snd).flatten := List.mem_flatten.2 ⟨x.2, List.mem_map.2 ⟨x, hx, rfl⟩, hy⟩
      rw [h3] at this
      exact (List.mem_filter.1 this).1
    obtain ⟨bs, out, m1, m2, m3⟩ := poly_chunk_away E hI ty x.2 (List.ne_nil_of_length_pos q2) q3 q4 (fun y hy => (hr y (hmem y hy) (q4 y hy)).1)
      (fun y hy => (hr y (hmem y hy) (q4 y hy)).2) a.error ha.1
    rw [op_is_call a x q1, hty]
    refine ⟨out, ?_, m3⟩
    have hf : (ChunkOp.bounded x.2 ty.comp a.bound a.level).frame E = .ok { frameSize := 0, sampleCount := x.2.length, compressor := ty.comp, data := bs } := by
      have hb : ty.comp.compressBounded E x.2 (FP.cvt a.bound) = .ok bs := m1
      cases ty <;> simp only [ChunkOp.frame, PolyType.comp, Frame.compressBounded, Frame.new, Option.getD_some] at hb ⊢ <;> rw [hb] <;> rfl
    rw [alone_eq hf]
    exact m2)
  exact ⟨_, outs, rfl, o1, o2⟩

/-- C58_cli_away_partial applies: 1, 2 at 5% with IDW and step interpolation. -/
example : ∃ bs, compressData Ext.dummy .debug oneTwo { compressor := .idw, error := 5, level := 0 } = .ok bs ∧
    (bs.length < 2 ^ 64 → ∃ chunks outs, chunks.flatten = finiteSamples oneTwo ∧ decompressData Ext.dummy bs = .ok outs.flatten ∧
      List.Forall₂ (MeetsBound 5) chunks outs) :=
  C58_cli_away_partial Ext.dummy Ext.dummy_lawful Ext.dummy_interpolates .debug oneTwo _ ⟨by decide, by decide⟩ (fun _ => by decide +kernel) (.inr rfl)
    (fun x hx _ => by
      simp only [oneTwo, List.mem_cons, List.not_mem_nil, or_false] at hx
      rcases hx with rfl | rfl
      · exact ⟨inRange_of_int (lit_val (by decide)).2 (by decide), by rw [(lit_val (by decide)).2]; norm_num⟩
      · exact ⟨inRange_of_int (lit_val (by decide)).2 (by decide), by rw [(lit_val (by decide)).2]; norm_num⟩)

theorem mape_same {c out : List F64} (h : SameValues out c) : exactMape c out ≤ 6 / 10000 := by
  have hs : (List.zipWith (fun x y : F64 => |(y.val - x.val) / x.val|) c out).sum = 0 := by
    obtain ⟨hl, h⟩ := h
    induction c generalizing out with
    | nil => simp
    | cons a c ih =>
      cases out with
      | nil => simp at hl
      | cons b out =>
        have h0 := h 0 (by simp) (by simp)
        simp only [List.getElem_cons_zero] at h0
        rw [List.zipWith_cons_cons, List.sum_cons, ih (out := out) (by simpa using hl) (fun i u1 u2 => h (i + 1) (by simpa using u1) (by simpa using u2))]
        rw [h0.1, sub_self, zero_div, abs_zero, add_zero]
  unfold exactMape
  rw [hs, zero_div]
  norm_num

/-- C89 (the part that holds) for samples at least 0.01 away from zero, at the command line with the default `auto`: every chunk comes back with a mean absolute percentage error of at most
`pct` percent times `32/27` (the most the chunk is extended for the FFT; 1 below 128 samples) plus 0.0006. -/
theorem C89_away_partial (E : Ext) (hE : E.Lawful) (hI : E.Interpolates) (p : Profile) (data : List F64) (a : CompArgs) (ha : a.Valid) (hp : FewEnough p data)
    (hc : a.compressor = .auto) (hlv : a.level = 0 ∨ data.length < sampleSize a.level)
    (hr : ∀ x ∈ data, x.isFinite = true → InRange x ∧ 1 / 100 ≤ |x.val|) :
    ∃ bs, compressData E p data a = .ok bs ∧
      (bs.length < 2 ^ 64 → ∃ chunks outs, chunks.flatten = finiteSamples data ∧ decompressData E bs = .ok outs.flatten ∧
        List.Forall₂ (fun c out => out.length = c.length ∧ exactMape c out ≤ (if c.length < 128 then 1 else 32 / 27) * ((a.error : ℚ) / 100) + 6 / 10000) chunks outs) := by
  obtain ⟨bs, h1, h2⟩ := C89_default_partial E hE hI p data a ha hp hc hlv (fun x hx hf => (hr x hx hf).1)
  refine ⟨bs, h1, fun hl => ?_⟩
  obtain ⟨chunks, outs, q1, q2, q3⟩ := h2 hl
  refine ⟨chunks, outs, q1, q2, ?_⟩
  have hall : ∀ c ∈ chunks, ∀ x ∈ c, 1 / 100 ≤ |x.val| := by
    intro c hc x hx
    have : x ∈ chunks.flatten := List.mem_flatten.2 ⟨c, hc, hx⟩
    rw [q1] at this
    obtain ⟨m1, m2⟩ := List.mem_filter.1 this
    exact (hr x m1 m2).2
  clear q1 q2 h1 h2
  induction q3 with
  | nil => exact .nil
  | @cons c out cs os hd tl ih =>
    refine .cons ?_ (ih fun c hc => hall c (List.mem_cons_of_mem _ hc))
    have hb := hall c List.mem_cons_self
    obtain ⟨k1, k2⟩ := hd
    refine ⟨k1, ?_⟩
    have hp0 : (0 : ℚ) ≤ (a.error : ℚ) / 100 := by positivity
    generalize (a.error : ℚ) / 100 = w at *
    have hfac : 0 ≤ (if c.length < 128 then 1 else 32 / 27 : ℚ) * w := by split_ifs <;> linarith
    rcases Nat.eq_zero_or_pos c.length with h0 | h0
    · have : exactMape c out = 0 := by unfold exactMape; rw [h0]; simp
      rw [this]
      have : (0 : ℚ) ≤ 6 / 10000 := by norm_num
      linarith
    rcases k2 with k2 | k2 | ⟨-, -, N, n1, n2⟩
    · have := mape_same k2
      linarith
    · have := mape_5decimals h0 k2 hb
      linarith
    · refine le_trans n2 ?_
      have hpos : (0 : ℚ) < c.length := by exact_mod_cast h0
      have hN : (N : ℚ) / c.length ≤ (if c.length < 128 then 1 else 32 / 27 : ℚ) := by
        obtain ⟨f1, f2⟩ := C89_factor n1
        split_ifs with hs
        · rw [f2 hs, div_self hpos.ne']
        · rw [div_le_iff₀ hpos]
          have : 27 * (N : ℚ) ≤ 32 * c.length := by exact_mod_cast f1
          linarith
      have := mul_le_mul_of_nonneg_right hN hp0
      norm_num at this ⊢
      linarith

/-- C89_away_partial applies: 1, 2 at 5%, level 0. -/
example : ∃ bs, compressData Ext.dummy .debug oneTwo { compressor := .auto, error := 5, level := 0 } = .ok bs ∧
    (bs.length < 2 ^ 64 → ∃ chunks outs, chunks.flatten = finiteSamples oneTwo ∧ decompressData Ext.dummy bs = .ok outs.flatten ∧
      List.Forall₂ (fun c out => out.length = c.length ∧ exactMape c out ≤ (if c.length < 128 then 1 else 32 / 27) * (((5 : Nat) : ℚ) / 100) + 6 / 10000) chunks outs) :=
  C89_away_partial Ext.dummy Ext.dummy_lawful Ext.dummy_interpolates .debug oneTwo _ ⟨by decide, by decide⟩ (fun _ => by decide +kernel) rfl (.inl rfl)
    (fun x hx _ => by
      simp only [oneTwo, List.mem_cons, List.not_mem_nil, or_false] at hx
      rcases hx with rfl | rfl
      · exact ⟨inRange_of_int (lit_val (by decide)).2 (by decide), by rw [(lit_val (by decide)).2]; norm_num⟩
      · exact ⟨inRange_of_int (lit_val (by decide)).2 (by decide), by rw [(lit_val (by decide)).2]; norm_num⟩)

end Atsc
