import Verif.Props.PolyReport
import Verif.Props.Layout
import Verif.Props.Interp
import Verif.Props.Default
/- C126: which samples of a Polynomial or IDW frame come back whatever the error. -/
namespace Atsc
open FP

theorem splineSamples_at (f : F64 → Option F64) (mn mx : F64) (d : Nat) : ∀ (m s : Nat) (prev : F64) (i : Nat) (v : F64), f (F64.lit ((s + i : Nat) : Int)) = some v →
    ∀ h : i < (splineSamples f mn mx d (List.range' s m) prev).length, (splineSamples f mn mx d (List.range' s m) prev)[i] = roundAndLimit v mn mx d := by
  intro m
  induction m with
  | zero => intro s prev i v _ h; simp [splineSamples] at h
  | succ m ih =>
    intro s prev i v hv h
    rw [List.range'_succ] at h
    simp only [List.range'_succ, splineSamples] at h ⊢
    cases i with
    | zero => rw [Nat.add_zero] at hv; simp [hv]
    | succ i =>
      rw [List.getElem_cons_succ]
      exact ih (s + 1) _ i v (by rw [← hv]; congr 3; omega) (by simpa using h)

/-- What the decoder makes of the knots themselves, for any step. -/
theorem interp_knots (E : Ext) (hE : E.Interpolates) (c : Poly) (n : Nat) (hn : 1 ≤ n) (hlen : n ≤ 2 ^ 53) (hs : c.pointStep ≠ 0)
    (hdl : c.dataPoints.length = (positions n c.pointStep).length)
    (hv : ∀ v ∈ c.dataPoints, v.isFinite = true ∧ |v.val| ≤ 2 ^ 1000) :
    ∃ out, c.interpolate E n = .ok out ∧ out.length = n ∧
      ∀ j (h1 : j < (positions n c.pointStep).length) (h2 : j < c.dataPoints.length) (h3 : (positions n c.pointStep)[j] < out.length),
        ∃ v, v.feq c.dataPoints[j] = true ∧ out[(positions n c.pointStep)[j]] = roundAndLimit v c.min c.max 5 := by
  obtain ⟨p1, p2⟩ := positions_spec hn (by omega : 1 ≤ c.pointStep)
  generalize hps : positions n c.pointStep = ps at *
  have hg : c.getPositions n = .ok ps := by
    unfold Poly.getPositions; rw [if_neg hs, if_neg (by omega), hps]
  have hlt : ∀ p ∈ ps, p < n := fun p hp => ((p2 p).1 hp).1
  unfold Poly.interpolate
  cases c.id with
  | polynomial =>
    simp only [Poly.polynomialToData, hg, ok_bind]
    set keys := splineKeys ps c.dataPoints with hkeys
    have hkl : keys.length = ps.length := by simp [hkeys, splineKeys, hdl]
    have hk : ∀ i (h : i < keys.length), keys[i].t = F64.lit ((ps[i]'(by omega) : Nat) : Int) ∧ keys[i].value = c.dataPoints[i]'(by omega) := by
      intro i h
      simp only [hkeys, splineKeys, List.getElem_mapIdx, List.getElem_zip]
      exact ⟨trivial, trivial⟩
    have hsort : keys.Pairwise fun a b => a.t.lt b.t = true := by
      rw [List.pairwise_iff_getElem]
      intro i j hi hj hij
      rw [(hk i hi).1, (hk j hj).1]
      have := List.pairwise_iff_getElem.1 p1 i j (by omega) (by omega) hij
      have := hlt _ (List.getElem_mem (by omega : j < ps.length))
      exact lit_lt (by assumption) (by omega)
    have hfin : ∀ k ∈ keys, (∃ n : Nat, n < 2 ^ 53 ∧ k.t = F64.lit n) ∧ k.value.isFinite = true ∧ |k.value.val| ≤ 2 ^ 1000 := by
      intro k hk'
      obtain ⟨i, hi, rfl⟩ := List.mem_iff_getElem.1 hk'
      rw [(hk i hi).1, (hk i hi).2]
      have := hlt _ (List.getElem_mem (by omega : i < ps.length))
      exact ⟨⟨_, by omega, rfl⟩, hv _ (List.getElem_mem _)⟩
    have hcr : ∀ i (h : i < keys.length), keys[i].catmullRom = true → 0 < i ∧ i + 2 < keys.length := by
      intro i h hc
      simp only [hkeys, splineKeys, List.getElem_mapIdx, Bool.and_eq_true, decide_eq_true_eq] at hc
      omega
    refine ⟨_, rfl, ?_, ?_⟩
    · rw [(splineSamples_spec _ _ _ _ _ _).1, List.length_range]
    · intro j h1 h2 h3
      have hj : j < keys.length := by omega
      obtain ⟨v, g1, g2⟩ := hE.spline keys hsort hfin hcr keys[j] (List.getElem_mem hj)
      rw [(hk j hj).1] at g1; rw [(hk j hj).2] at g2
      refine ⟨v, g2, ?_⟩
      simp only [List.range_eq_range'] at h3 ⊢
      exact splineSamples_at _ _ _ _ n 0 c.min _ v (by rw [Nat.zero_add]; exact g1) h3
  | idw =>
    simp only [Poly.idwToData, hg, ok_bind]
    refine ⟨_, rfl, by simp, ?_⟩
    intro j h1 h2 h3
    have := hE.idw ps c.dataPoints (by omega) p1 (fun p hp => by have := hlt p hp; omega) hv j h1 h2
    simp only [List.getElem_map, List.getElem_range] at this ⊢
    exact ⟨_, this, rfl⟩

/-- Rounding to five decimals within the limits of the chunk. -/
theorem limited (data : List F64) (hne : data ≠ []) (hfin : AllFinite data) (hr : ∀ x ∈ data, InRange x) {st : DataStats} (hst : DataStats.new data = .ok st)
    {v x : F64} (hx : x ∈ data) (v1 : v.feq x = true) :
    |(roundAndLimit v st.min st.max 5).val - x.val| ≤ 1 / 200000 + (|x.val| + 1) / 2 ^ 51 ∧
      (FiveDecimals x → (roundAndLimit v st.min st.max 5).val = x.val) := by
  have hn : ∀ y ∈ data, y.isNaN = false := fun y hy => isFinite_not_nan (hfin y hy)
  obtain ⟨st', a, g1, hinv, e1, e2, -⟩ := stats_spec hne hn
  rw [hst] at g1; injection g1 with g1; subst g1
  have hmaxm : st.max ∈ data := e1 ▸ List.mem_of_getElem? hinv.max_at
  have hminm : st.min ∈ data := e2 ▸ List.mem_of_getElem? hinv.min_at
  obtain ⟨b1, b2, b3, b4⟩ : v.isFinite = true ∧ v.val = x.val ∧ st.min.le v = true ∧ v.le st.max = true := by
    have h3 := feq_iff.1 v1
    have hval : v.val = x.val := (val_eq_iff (by decide)).2 h3.2.2
    have hvf : v.isFinite = true := by
      have hxf := hfin x hx
      rcases (feq_iff_eq_or_zero h3.1 h3.2.1).1 v1 with h | ⟨h, _⟩
      · rw [h]; exact hxf
      · have : v.mag.val = 0 := magVal_eq_zero.1 h
        unfold FP.isFinite; rw [this]; decide
    refine ⟨hvf, hval, le_iff.2 ⟨hn _ hminm, h3.1, ?_⟩, le_iff.2 ⟨h3.1, hn _ hmaxm, ?_⟩⟩
    · rw [h3.2.2, e2]; exact hinv.min_le x hx
    · rw [h3.2.2, e1]; exact hinv.max_le x hx
  constructor
  · rw [← b2]
    have := C32_accuracy v st.min st.max 5 (by norm_num) b1 (by
      rw [b2]
      rcases hr _ hx with h0 | ⟨_, h1⟩
      · rw [h0, abs_zero]; exact le_of_lt (by positivity)
      · exact le_trans h1.le (by rw [show (2:ℚ) ^ (63 : ℤ) = 2 ^ 63 from by norm_cast]; exact big_le (by norm_num))) b3 b4
    rw [show (1 : ℚ) / (2 * 10 ^ 5) = 1 / 200000 by norm_num] at this
    exact this
  · rintro ⟨k, hk, hxk⟩
    rcases (feq_iff_eq_or_zero (isFinite_not_nan b1) (hn _ hx)).1 v1 with h | ⟨h, _⟩
    · have hb3 := b3; have hb4 := b4
      rw [h, hxk] at hb3 hb4
      rw [h, hxk]
      exact C32_decimals_unchanged k 5 (by norm_num) hk st.min st.max hb3 hb4
    · have hv0 : v.val = 0 := by
        rw [val_eq (by decide), show v.scaled = 0 by rw [← Int.natAbs_eq_zero, scaled_natAbs]; exact h]; simp
      obtain ⟨z1, z2⟩ := zero_round5 v hv0
      rw [← b2, hv0, roundAndLimit_eq]
      have hz : ∀ w : F64, w.val = 0 → w.scaled = 0 := by
        intro w hw
        have := (val_eq_int (by decide) (x := w) (n := 0)).1 (by rw [hw]; rfl)
        simpa using this
      have s1 := hz _ z1
      have s2 := hz _ hv0
      have s3 := (le_iff.1 b3).2.2
      have s4 := (le_iff.1 b4).2.2
      split_ifs with q1 q2
      · have := (lt_iff.1 q1).2.2; omega
      · have := (lt_iff.1 q2).2.2; omega
      · exact z1

/-- Specification: the sample `x` comes back as `y`: to five decimals, and with its value if it is the double nearest to a decimal with at most five digits after the
point. -/
def BackTo5 (x y : F64) : Prop := |y.val - x.val| ≤ 1 / 200000 + (|x.val| + 1) / 2 ^ 51 ∧ (FiveDecimals x → y.val = x.val)

/-- Specification: in `out` every `step`-th sample of `data` and the last come back to five decimals. -/
def EachBack (step : Nat) (data out : List F64) : Prop := out.length = data.length ∧
  ∀ i (h1 : i < out.length) (h2 : i < data.length), step ∣ i ∨ i = data.length - 1 → BackTo5 data[i] out[i]

/-- A frame holding every `k`-th sample. -/
theorem stored_back (E : Ext) (hE : E.Interpolates) (ty : PolyType) {data : List F64} (hlen : data.length ≤ 2 ^ 53)
    (hfin : AllFinite data) (hr : ∀ x ∈ data, InRange x) {st : DataStats} (hst : DataStats.new data = .ok st)
    (hc : st.max.feq st.min = false) {k : Nat} (k1 : 1 ≤ k) (k2 : k ≤ 133) :
    ∃ out, ty.comp.decompress E data.length ((Poly.start st ty).stored data k).enc = .ok out ∧ EachBack k data out := by
  have hne : data ≠ [] := by rintro rfl; cases hst
  have hn1 : 1 ≤ data.length := List.length_pos_of_ne_nil hne
  rw [comp_decompress, polyToData_enc E _ _ (lt_of_le_of_lt (stored_length_le hn1 k1 _) (lt_of_le_of_lt hlen (by norm_num)))]
  set c := ((Poly.start st ty).stored data k).seen with hcdef
  have hps : c.pointStep = k := by show k % 256 % 256 = k; omega
  have hdp : c.dataPoints = ((positions data.length k).map fun i => data.getD i FP.zero).map (castBD st.bitdepth) := rfl
  have htd : c.toData E data.length = c.interpolate E data.length := by
    unfold Poly.toData; rw [if_neg]
    show ¬ st.max.feq st.min = true
    rw [hc]; decide
  rw [htd]
  obtain ⟨p1, p2⟩ := positions_spec hn1 k1
  have hmem : ∀ i ∈ positions data.length k, data.getD i FP.zero ∈ data := by
    intro i hi
    rw [List.getD_eq_getElem _ _ ((p2 i).1 hi).1]
    exact List.getElem_mem _
  obtain ⟨out, o1, o2, o3⟩ := interp_knots E hE c data.length hn1 hlen (by rw [hps]; omega)
    (by rw [hdp, hps]; simp) (by
      intro v hv
      rw [hdp] at hv
      obtain ⟨x, hx, rfl⟩ := List.mem_map.1 hv
      obtain ⟨i, hi, rfl⟩ := List.mem_map.1 hx
      have hx := hmem i hi
      have h := castBD_val hfin hr hst hx
      refine ⟨h.2, ?_⟩
      rw [h.1]
      rcases hr _ hx with h0 | ⟨_, h1⟩
      · rw [h0, abs_zero]; exact le_of_lt (by positivity)
      · exact le_trans h1.le (by rw [show (2:ℚ) ^ (63 : ℤ) = 2 ^ 63 from by norm_cast]; exact big_le (by norm_num)))
  refine ⟨out, o1, o2, fun i h1 h2 hi => ?_⟩
  rw [hps] at o3
  obtain ⟨j, hj, he⟩ := List.getElem_of_mem ((p2 i).2 ⟨h2, hi⟩)
  obtain ⟨v, v1, v2⟩ := o3 j hj (by rw [hdp]; simpa using hj) (by rw [he]; exact h1)
  simp only [he] at v2
  have v1 : v.feq data[i] = true := by
    simp only [hdp, List.getElem_map, he] at v1
    rw [List.getD_eq_getElem _ _ h2] at v1
    have h := castBD_val hfin hr hst (List.getElem_mem h2)
    refine feq_trans v1 (feq_iff.2 ⟨isFinite_not_nan h.2, isFinite_not_nan (hfin _ (List.getElem_mem _)), ?_⟩)
    exact (val_eq_iff (by decide)).1 h.1
  rw [v2]
  exact limited data hne hfin hr hst (List.getElem_mem h2) v1

/-- **C126.** Whatever the error, a Polynomial or IDW frame keeps the first sample, the last and every `step`-th in between, `step` being at most 133: they come back to
five decimals, and with their values if they have at most five decimals. -/
theorem C126_kept (E : Ext) (hE : E.Interpolates) (ty : PolyType) (data : List F64) (hne : data ≠ []) (hlen : data.length ≤ 2 ^ 53)
    (hfin : AllFinite data) (hr : ∀ x ∈ data, InRange x) (e : F64) (bs : Bytes)
    (h : ty.comp.compress E data = .ok bs ∨ (ty.comp.compressBounded E data e = .ok bs ∧ e.isFinite = true ∧ |e.val| ≤ 2 ^ 40)) :
    ∃ step out, 1 ≤ step ∧ step ≤ 133 ∧ ty.comp.decompress E data.length bs = .ok out ∧ EachBack step data out := by
  have hn : ∀ y ∈ data, y.isNaN = false := fun y hy => isFinite_not_nan (hfin y hy)
  obtain ⟨st, hst⟩ := stats_ok hne
  have key : (st.max.feq st.min = true ∧ bs = (Poly.start st ty).enc) ∨
      (st.max.feq st.min = false ∧ ∃ k, 1 ≤ k ∧ k ≤ 133 ∧ bs = ((Poly.start st ty).stored data k).enc) := by
    rcases h with h | ⟨h, he, hm⟩
    · rw [comp_compress E ty data hne] at h
      obtain ⟨c, h1, ⟨h2, rfl⟩ | ⟨h2, k, h3, h4, rfl⟩⟩ := poly_plain_cases data hne ty st hst
      · rw [h1] at h; injection h with h
        exact .inl ⟨h2, h.symm⟩
      · rw [h1] at h; injection h with h
        exact .inr ⟨h2, k, h3, h4, h.symm⟩
    · rw [(comp_bounded E ty data hne e).2] at h
      obtain ⟨c, r, h1, h2, h3⟩ := poly_bounded_cases E data hne ty e st hst
      rw [h1] at h
      injection h with h
      rw [← h, h2]
      rcases h3 with ⟨q, rfl, _⟩ | ⟨_, q, _⟩ | ⟨q, _, s, hs, rfl, _⟩
      · exact .inl ⟨q, rfl⟩
      · rw [search_entered he hm] at q; exact absurd q (by decide)
      · obtain ⟨k, k1, k2, k3⟩ := polyDone_stored hs
        exact .inr ⟨q, k, k1, k2, by rw [k3]⟩
  rcases key with ⟨hc, rfl⟩ | ⟨hc, k, k1, k2, rfl⟩
  · refine ⟨1, List.replicate data.length st.max, le_refl _, by norm_num, ?_, by simp, fun i h1 h2 _ => ?_⟩
    · rw [comp_decompress, polyToData_enc E _ (Poly.start st ty) (Nat.two_pow_pos 64)]
      unfold Poly.toData
      rw [if_pos (by exact hc)]; rfl
    · obtain ⟨r1, r2, r3⟩ := stats_range hne hn hst
      obtain ⟨r4, r5⟩ := r3 _ (List.getElem_mem h2)
      have hv : st.max.val = (data[i]).val := by
        rw [val_eq_iff (by decide)]
        have a1 := (le_iff.1 r4).2.2
        have a2 := (le_iff.1 r5).2.2
        have a3 := (feq_iff.1 hc).2.2
        omega
      rw [List.getElem_replicate]
      refine ⟨?_, fun _ => hv⟩
      rw [hv, sub_self, abs_zero]
      positivity
  · obtain ⟨out, o1, o2⟩ := stored_back E hE ty hlen hfin hr hst hc k1 k2
    exact ⟨k, out, k1, k2, o1, o2⟩

/-- C126 for the reconstructed crates: no assumption about the interpolation is left. -/
theorem C126_reconstructed (E : Ext) (ty : PolyType) (data : List F64) (hne : data ≠ []) (hlen : data.length ≤ 2 ^ 53)
    (hfin : AllFinite data) (hr : ∀ x ∈ data, InRange x) (e : F64) (bs : Bytes)
    (h : ty.comp.compress E.withInterp data = .ok bs ∨ (ty.comp.compressBounded E.withInterp data e = .ok bs ∧ e.isFinite = true ∧ |e.val| ≤ 2 ^ 40)) :
    ∃ step out, 1 ≤ step ∧ step ≤ 133 ∧ ty.comp.decompress E.withInterp data.length bs = .ok out ∧ EachBack step data out :=
  C126_kept _ (withInterp_interpolates E) ty data hne hlen hfin hr e bs h

/-- C126 on the command line: with `--compressor polynomial` or `idw` and any `--error`, in every piece of the file (`layout`: at most 131 072 samples each) the first
sample, the last and every `step`-th come back to five decimals; which `step`, at most 133, differs from piece to piece. -/
theorem C126_cli (E : Ext) (hE : E.Lawful) (hI : E.Interpolates) (p : Profile) (data : List F64) (a : CompArgs) (ha : a.Valid) (hp : FewEnough p data)
    (hc : a.compressor = .polynomial ∨ a.compressor = .idw) (hr : ∀ x ∈ data, x.isFinite = true → InRange x) :
    ∃ bs, compressData E p data a = .ok bs ∧ (bs.length < 2 ^ 64 → ∃ outs, decompressData E bs = .ok outs.flatten ∧
      List.Forall₂ (fun l o => ∃ step, 1 ≤ step ∧ step ≤ 133 ∧ EachBack step l o) (layout (finiteSamples data)) outs) := by
  obtain ⟨bs, h1, h2⟩ := C54_end_to_end E hE p data a ha hp
  refine ⟨bs, h1, fun hl => ?_⟩
  obtain ⟨out, h3, -⟩ := h2 hl
  obtain ⟨outs, rfl, hp⟩ := decoded_pieces hE ha h1 hl h3
  refine ⟨outs, h3, ?_⟩
  obtain ⟨ty, hty⟩ : ∃ ty : PolyType, a.compressor.toCompressor = ty.comp ∧ ∀ l, a.op (a.compressor.toCompressor, l) = .bounded l ty.comp a.bound a.level := by
    rcases hc with hc | hc
    · exact ⟨.polynomial, by rw [hc]; rfl, fun l => by rw [CompArgs.op, hc]; rfl⟩
    · exact ⟨.idw, by rw [hc]; rfl, fun l => by rw [CompArgs.op, hc]; rfl⟩
  rw [List.forall₂_iff_get] at hp ⊢
  refine ⟨hp.1, fun i hi hi' => ?_⟩
  obtain ⟨q1, q2⟩ := hp.2 i hi hi'
  have hmem : (layout (finiteSamples data)).get ⟨i, hi⟩ ∈ layout (finiteSamples data) := List.get_mem _ _
  generalize (layout (finiteSamples data)).get ⟨i, hi⟩ = l at q1 q2 hmem ⊢
  have hall : ∀ y ∈ l, y ∈ data ∧ y.isFinite = true := by
    intro y hy
    have : y ∈ (layout (finiteSamples data)).flatten := List.mem_flatten.2 ⟨l, hmem, hy⟩
    rw [(layout_lengths _).2] at this
    exact List.mem_filter.1 this
  have hsz := layout_small hmem
  have hne : l ≠ [] := List.ne_nil_of_length_pos hsz.1
  obtain ⟨b1, b2, b3⟩ := bound_cvt ha.1
  have hbig : |(FP.cvt a.bound : F64).val| ≤ 2 ^ 40 := by
    have b3 : (FP.cvt a.bound : F64).val ≤ a.error / 100 + 1 / 2 ^ 25 := b3
    have b2 : 0 ≤ (FP.cvt a.bound : F64).val := b2
    rw [abs_of_nonneg b2]
    have : (a.error : ℚ) ≤ 50 := by exact_mod_cast ha.1
    refine le_trans b3 ?_
    norm_num
    linarith
  obtain ⟨b, hb⟩ : ∃ b, ty.comp.compressBounded E l (FP.cvt a.bound) = .ok b := by
    rw [(comp_bounded E ty l hne _).2]
    obtain ⟨st, hst⟩ := stats_ok hne
    obtain ⟨c, r, g1, _⟩ := poly_bounded_cases E l hne ty (FP.cvt a.bound) st hst
    exact ⟨_, by rw [g1]; rfl⟩
  obtain ⟨step, o, s1, s2, s3, s4⟩ := C126_kept E hI ty l hne (by omega) (fun y hy => (hall y hy).2)
    (fun y hy => hr y (hall y hy).1 (hall y hy).2) _ b (.inr ⟨hb, b1, hbig⟩)
  have hf : (ChunkOp.bounded l ty.comp a.bound a.level).frame E = .ok { frameSize := 0, sampleCount := l.length, compressor := ty.comp, data := b } := by
    cases ty <;> simp only [ChunkOp.frame, PolyType.comp, Frame.compressBounded, Frame.new, Option.getD_some] at hb ⊢ <;> rw [hb] <;> rfl
  rw [hty.2, alone_eq hf] at q1
  have q1 : ty.comp.decompress E l.length b = _ := q1
  rw [s3] at q1
  obtain rfl := Except.ok.inj q1
  exact ⟨step, s1, s2, s4⟩

/-- C126_cli applies. -/
example : ∃ bs, compressData Ext.dummy .debug oneTwo { compressor := .idw, error := 50, level := 0 } = .ok bs ∧
    (bs.length < 2 ^ 64 → ∃ outs, decompressData Ext.dummy bs = .ok outs.flatten ∧
      List.Forall₂ (fun l o => ∃ step, 1 ≤ step ∧ step ≤ 133 ∧ EachBack step l o) (layout (finiteSamples oneTwo)) outs) :=
  C126_cli Ext.dummy Ext.dummy_lawful Ext.dummy_interpolates .debug oneTwo _ ⟨by decide, by decide⟩ (fun _ => by decide +kernel) (.inr rfl)
    (fun x hx _ => by
      simp only [oneTwo, List.mem_cons, List.not_mem_nil, or_false] at hx
      rcases hx with rfl | rfl
      · exact inRange_of_int (lit_val (by decide)).2 (by decide)
      · exact inRange_of_int (lit_val (by decide)).2 (by decide))

/-- Ten samples with one spike. -/
def oneSpike : List F64 := (List.range 10).map fun i : Nat => if i = 4 then F64.lit 11 else F64.lit 10

/-- C126_kept applies to it, with a frame that does not hold every sample. -/
example : ∃ bs, Compressor.idw.compressBounded Ext.dummy.withInterp oneSpike (FP.cvt ((FP.ofInt 5 : F32).div (FP.ofInt 100))) = .ok bs ∧
    ∃ step out, 1 ≤ step ∧ step ≤ 133 ∧ Compressor.idw.decompress Ext.dummy.withInterp oneSpike.length bs = .ok out ∧ EachBack step oneSpike out := by
  obtain ⟨b1, b2, b3⟩ := bound_cvt (n := 5) (by norm_num)
  obtain ⟨st, hst⟩ := stats_ok (data := oneSpike) (by decide)
  obtain ⟨c, r, g1, _⟩ := poly_bounded_cases Ext.dummy.withInterp oneSpike (by decide) .idw (FP.cvt ((FP.ofInt 5 : F32).div (FP.ofInt 100))) st hst
  have hb : Compressor.idw.compressBounded Ext.dummy.withInterp oneSpike (FP.cvt ((FP.ofInt 5 : F32).div (FP.ofInt 100))) = .ok r.data := by
    have := (comp_bounded Ext.dummy.withInterp .idw oneSpike (by decide) (FP.cvt ((FP.ofInt 5 : F32).div (FP.ofInt 100)))).2
    rw [g1] at this; exact this
  refine ⟨r.data, hb, C126_reconstructed Ext.dummy .idw oneSpike (by decide) (by decide) ?_ ?_ _ _ (.inr ⟨hb, b1, ?_⟩)⟩
  · intro x hx
    obtain ⟨i, _, rfl⟩ := List.mem_map.1 hx
    split <;> exact (lit_val (by decide)).1
  · intro x hx
    obtain ⟨i, _, rfl⟩ := List.mem_map.1 hx
    split <;> exact inRange_of_int (lit_val (by decide)).2 (by decide)
  · have b3' : _ ≤ ((5 : ℕ) : ℚ) / 100 + 1 / 2 ^ 25 := b3
    refine (abs_of_nonneg b2).trans_le (le_trans b3' ?_)
    norm_num

set_option maxRecDepth 100000 in
set_option maxHeartbeats 4000000 in
/-- The samples in between need not come back: with the reconstructed crates, `--compressor idw --error 5` flattens the spike 11 among tens to 10. -/
theorem C126_refuted_between : ∃ bs out, compressData Ext.dummy.withInterp .debug oneSpike { compressor := .idw, error := 5, level := 0 } = .ok bs ∧
    decompressData Ext.dummy.withInterp bs = .ok out ∧ oneSpike[4]? = some (F64.lit 11) ∧ out = List.replicate 10 (F64.lit 10) := by
  have h : okAnd (compressData Ext.dummy.withInterp .debug oneSpike { compressor := .idw, error := 5, level := 0 }) (fun bs =>
      okAnd (decompressData Ext.dummy.withInterp bs) fun out => decide (oneSpike[4]? = some (F64.lit 11) ∧ out = List.replicate 10 (F64.lit 10))) = true := by
    decide +kernel
  obtain ⟨bs, h1, h2⟩ := okAnd_iff.1 h
  obtain ⟨out, h3, h4⟩ := okAnd_iff.1 h2
  exact ⟨bs, out, h1, h3, of_decide_eq_true h4⟩
end Atsc
