import Verif.Props.Poly
/- C18, exactly: what error the bounded Polynomial/IDW compressor reports, for every chunk and every bound.  C19, exactly: which samples come back unchanged when all
are stored. -/
namespace Atsc
open FP

/-- Specification: the bounded compressor searches for this bound: the bound at three decimals is below the bound plus one at four decimals (polynomial.rs:228-231). -/
def PolySearches (e : F64) : Prop := (roundF64 e 3).lt (roundF64 (e.add (F64.lit 1)) 4) = true

/-- Specification: the frame `bs` holds the samples `kept` of the chunk, every `step`-th and the last, each converted to the storage type and back (`c` is the
frame as the decoder reads it). -/
structure Holds (data : List F64) (bd : Bitdepth) (bs : Bytes) (c : Poly) (kept : List F64) : Prop where
  reads : unwrapDec Poly.dec bs = .ok c
  converted : c.dataPoints = kept.map (castBD bd)
  positions : ∃ ps, c.getPositions data.length = .ok ps ∧ kept.length = ps.length ∧ StepPositions data.length c.pointStep ps ∧
    ∀ (j i : Nat), ps[j]? = some i → kept[j]? = data[i]?

theorem holds_stored {data : List F64} (hne : data ≠ []) (hlen : data.length < 2 ^ 64) (c0 : Poly) {k : Nat} (h1 : 1 ≤ k) (h2 : k ≤ 133) :
    Holds data c0.bitdepth (c0.stored data k).enc (c0.stored data k).seen (c0.stored data k).dataPoints := by
  have hn : 1 ≤ data.length := List.length_pos_of_ne_nil hne
  obtain ⟨p1, p2⟩ := positions_spec hn h1
  have hmod : k % 256 % 256 = k := by omega
  have hps : (c0.stored data k).seen.pointStep = k := hmod
  refine ⟨poly_unwrap _ (lt_of_le_of_lt (stored_length_le hn h1 c0) hlen), rfl, Atsc.positions data.length k, ?_, ?_, ?_, ?_⟩
  · unfold Poly.getPositions
    rw [hps, if_neg (by omega), if_neg (by omega)]
  · simp [Poly.stored]
  · rw [hps]; exact ⟨p1, p2⟩
  · intro j i hj
    have hi : i < data.length := ((p2 i).1 (List.mem_of_getElem? hj)).1
    simp only [Poly.stored, List.getElem?_map, hj, Option.map_some]
    rw [List.getD_eq_getElem _ _ hi, List.getElem?_eq_getElem hi]

/-- **C18, exactly.** For every chunk without NaN and every bound - also NaN, infinite or absurd ones - the bounded Polynomial/IDW compressor gives a frame, and the
error it reports is:
0 if all samples are equal, and then the frame reads back as one of them repeated;
else, if the bound is not searched for, the bound plus one, and then the frame stores no sample at all;
else the error of what the decoder would make of the kept samples *before* they are converted to the storage type, and then that error at four decimals is not above
the bound at three decimals (or one of them is NaN) - or 0 when every sample is kept. -/
theorem C18_exact (E : Ext) (ty : PolyType) (data : List F64) (hne : data ≠ []) (hlen : data.length < 2 ^ 64) (hn : ∀ y ∈ data, y.isNaN = false) (e : F64) :
    ∃ st r, DataStats.new data = .ok st ∧ ty.comp.boundedResults E data e = .ok r ∧ ty.comp.compressBounded E data e = .ok r.data ∧
      ((∀ x ∈ data, ∀ y ∈ data, x.lt y = false) → r.error = FP.zero ∧ ∃ v ∈ data, (∀ x ∈ data, x.feq v = true) ∧
        ty.comp.decompress E data.length r.data = .ok (List.replicate data.length v)) ∧
      (∀ x ∈ data, ∀ y ∈ data, x.lt y = true → ¬ PolySearches e → r.error = e.add (F64.lit 1) ∧ ∃ c, unwrapDec Poly.dec r.data = .ok c ∧ c.dataPoints = []) ∧
      (∀ x ∈ data, ∀ y ∈ data, x.lt y = true → PolySearches e → ∃ c kept full, Holds data st.bitdepth r.data c kept ∧
        ty.comp.decompress E data.length r.data = c.toData E data.length ∧
        ({ c with dataPoints := kept } : Poly).toData E data.length = .ok full ∧
        ((calculateError data full = .ok r.error ∧ (roundF64 e 3).lt (roundF64 r.error 4) = false) ∨ (r.error = FP.zero ∧ kept = data))) := by
  have hn1 : 1 ≤ data.length := List.length_pos_of_ne_nil hne
  obtain ⟨st, a, hst, hinv, e1, e2, -⟩ := stats_spec hne hn
  have hmaxm : st.max ∈ data := e1 ▸ List.mem_of_getElem? hinv.max_at
  have hminm : st.min ∈ data := e2 ▸ List.mem_of_getElem? hinv.min_at
  obtain ⟨c, r, h1, h2, h3⟩ := poly_bounded_cases E data hne ty e st hst
  refine ⟨st, r, hst, by rw [(comp_bounded E ty data hne e).1, h1], by rw [(comp_bounded E ty data hne e).2, h1]; rfl, ?_⟩
  rcases h3 with ⟨h, rfl, hz⟩ | ⟨hc, h, rfl⟩ | ⟨hc, h, s, hs, rfl, hre⟩
  · have hno : ∀ x ∈ data, ∀ y ∈ data, x.lt y = true → False := fun x hx y hy hxy => by
      have := stats_nonconst hn hst hx hy hxy
      rw [h] at this; exact absurd this (by decide)
    refine ⟨fun _ => ⟨hz, st.max, hmaxm, fun x hx => ?_, ?_⟩, fun x hx y hy hxy => (hno x hx y hy hxy).elim, fun x hx y hy hxy => (hno x hx y hy hxy).elim⟩
    · have g1 := hinv.min_le x hx
      have g2 := hinv.max_le x hx
      have g3 := (feq_iff.1 h).2.2
      rw [e1, e2] at g3
      rw [e1]
      refine feq_iff.2 ⟨hn x hx, by rw [← e1]; exact hn _ hmaxm, by omega⟩
    · rw [comp_decompress, h2, polyToData_enc E _ (Poly.start st ty) (Nat.two_pow_pos 64)]
      unfold Poly.toData
      rw [if_pos (by exact h)]; rfl
  · have hyes : ¬ ∀ x ∈ data, ∀ y ∈ data, x.lt y = false := fun hall => by
      have g1 := hall _ hminm _ hmaxm
      have g2 := hinv.min_le st.max hmaxm
      have : st.max.feq st.min = true := by
        have hle := hinv.min_le _ hmaxm
        refine feq_iff.2 ⟨hn _ hmaxm, hn _ hminm, ?_⟩
        have : ¬ st.min.scaled < st.max.scaled := fun hlt => by
          rw [lt_iff.2 ⟨hn _ hminm, hn _ hmaxm, hlt⟩] at g1; cases g1
        rw [← e2] at hle
        omega
      rw [hc] at this; cases this
    refine ⟨fun hall => absurd hall hyes, fun x hx y hy hxy hno => ?_, fun x hx y hy hxy hyes' => ?_⟩
    · refine ⟨?_, (Poly.start st ty).seen, ?_, rfl⟩
      · have : r = ⟨(Poly.start st ty).enc, e.add (F64.lit 1)⟩ := by
          have hcb : (Poly.new st.min st.max ty st.bitdepth).compressBounded E data e =
              .ok { Poly.start st ty with error := some (e.add (F64.lit 1)) } := by
            unfold Poly.compressBounded
            rw [if_neg (by show ¬ st.max.feq st.min = true; rw [hc]; decide)]
            have : Poly.loop E data (roundF64 e 3) 23 ((Poly.start st ty).loopInit e) = .ok ((Poly.start st ty).loopInit e) := by
              unfold Poly.loop
              rw [if_neg (by show ¬ (roundF64 e 3).lt (roundF64 (e.add (F64.lit 1)) 4) = true; rw [h]; decide)]
            rw [show (Poly.new st.min st.max ty st.bitdepth) = Poly.start st ty from rfl, this]
            rfl
          unfold polynomialAllowedError at h1
          simp only [hst, ok_bind, hcb] at h1
          rw [← Except.ok.inj h1]
          rfl
        rw [this]
      · rw [h2]; exact poly_unwrap _ (Nat.two_pow_pos 64)
    · exact absurd hyes' (by unfold PolySearches; rw [h]; decide)
  · have hyes : ¬ ∀ x ∈ data, ∀ y ∈ data, x.lt y = false := fun hall => by
      have g1 := hall _ hminm _ hmaxm
      have : st.max.feq st.min = true := by
        have hle := hinv.min_le _ hmaxm
        refine feq_iff.2 ⟨hn _ hmaxm, hn _ hminm, ?_⟩
        have : ¬ st.min.scaled < st.max.scaled := fun hlt => by
          rw [lt_iff.2 ⟨hn _ hminm, hn _ hmaxm, hlt⟩] at g1; cases g1
        rw [← e2] at hle
        omega
      rw [hc] at this; cases this
    refine ⟨fun hall => absurd hall hyes, fun x hx y hy hxy hno => absurd h hno, fun x hx y hy hxy _ => ?_⟩
    obtain ⟨k, k1, k2, k3⟩ := polyDone_stored hs
    have hl : s.c.dataPoints.length < 2 ^ 64 := by rw [k3]; exact lt_of_le_of_lt (stored_length_le hn1 k1 _) hlen
    have hto : ({ s.c.seen with dataPoints := s.c.dataPoints } : Poly).toData E data.length = s.c.interpolate E data.length := by
      unfold Poly.toData
      rw [if_neg (by rw [k3]; show ¬ st.max.feq st.min = true; rw [hc]; decide), k3]
      show ({ id := ty, dataPoints := _, min := st.min, max := st.max, pointStep := k % 256 % 256, error := none, bitdepth := st.bitdepth } : Poly).interpolate E _ = _
      rw [show k % 256 % 256 = k % 256 by omega]
      rfl
    have hh := holds_stored hne hlen (Poly.start st ty) k1 k2
    rw [← k3, ← h2] at hh
    have hd : ty.comp.decompress E data.length r.data = s.c.seen.toData E data.length := by
      rw [comp_decompress, h2, polyToData_enc E _ _ hl]
    rcases hs with ⟨⟨k', k1', k2', k3', out, k4, k5⟩, hacc⟩ | ⟨k', k1', k2', k3', k4, k5⟩
    · exact ⟨s.c.seen, s.c.dataPoints, out, hh, hd, by rw [hto]; exact k4, .inl ⟨by rw [hre]; exact k5, by rw [hre]; exact hacc⟩⟩
    · obtain ⟨out, h4, _, _⟩ := interpolate_ok E s.c data.length hn1 (by
        rw [k3]; show k % 256 ≠ 0; omega)
      refine ⟨s.c.seen, s.c.dataPoints, out, hh, hd, by rw [hto]; exact h4, .inr ⟨by rw [hre]; exact k5, ?_⟩⟩
      -- all positions are there, so the kept samples are the chunk
      obtain ⟨ps, q1, q2, q3, q4⟩ := hh.positions
      have hps : ps = List.range data.length := by
        have hsub : ps ⊆ List.range data.length := fun i hi => List.mem_range.2 ((q3.2 i).1 hi).1
        have hnd : ps.Nodup := q3.1.imp fun h => Nat.ne_of_lt h
        have hperm : ps.Perm (List.range data.length) :=
          (hnd.subperm hsub).perm_of_length_le (by rw [List.length_range, ← q2]; exact k4.ge)
        exact hperm.eq_of_pairwise (fun a b _ _ h1 h2 => absurd (Nat.lt_trans h1 h2) (Nat.lt_irrefl _)) q3.1 List.pairwise_lt_range
      apply List.ext_getElem?
      intro i
      by_cases hi : i < data.length
      · exact q4 i i (by rw [hps, List.getElem?_range hi])
      · rw [List.getElem?_eq_none (by omega), List.getElem?_eq_none (by omega)]

/-- When every kept sample survives the conversion, the decoded frame is the one whose error was reported; so then the report is the error of the decompressed
chunk (or 0 with every sample stored). -/
theorem C18_same (data : List F64) (bd : Bitdepth) (bs : Bytes) (c : Poly) (kept : List F64) (h : Holds data bd bs c kept)
    (hs : ∀ x ∈ kept, castBD bd x = x) : ({ c with dataPoints := kept } : Poly) = c := by
  have : c.dataPoints = kept := by
    rw [h.converted]
    conv_rhs => rw [← List.map_id kept]
    exact List.map_congr_left hs
  rw [← this]

/-- Which bounds are searched for: every finite one of magnitude up to `2^40`; not NaN and not the infinities. -/
theorem C18_which_bounds (e : F64) : (e.isFinite = true → |e.val| ≤ 2 ^ 40 → PolySearches e) ∧ (e.isFinite = false → ¬ PolySearches e) := by
  refine ⟨fun h1 h2 => search_entered h1 h2, fun h hs => ?_⟩
  have hnan : e.isNaN = false := by rw [← roundF64_nan e (d := 3) (by norm_num)]; exact (lt_iff.1 hs).1
  have hinf : e = FP.inf false ∨ e = FP.inf true := by
    unfold FP.isFinite at h
    unfold FP.isNaN at hnan
    simp only [decide_eq_false_iff_not, not_lt] at h hnan
    have hm : e.mag.val = infMag 52 11 := by omega
    cases hsg : e.sign
    · exact .inl (ext_iff'.2 ⟨hsg, hm⟩)
    · exact .inr (ext_iff'.2 ⟨hsg, hm⟩)
  rcases hinf with rfl | rfl
  · exact absurd hs (by unfold PolySearches; decide +kernel)
  · exact absurd hs (by unfold PolySearches; decide +kernel)

/-- The three cases occur; and in the third the conversion can matter (`bigTail` of `C18_refuted_large`). -/
example : (∀ x ∈ [F64.lit 5, F64.lit 5], ∀ y ∈ [F64.lit 5, F64.lit 5], x.lt y = false) ∧ (F64.lit 1).lt (F64.lit 2) = true ∧
    PolySearches (F64.lit 0) ∧ ¬ PolySearches (FP.inf false) ∧ ∀ y ∈ bigTail, y.isNaN = false := by
  refine ⟨?_, ?_, ?_, (C18_which_bounds _).2 (by decide +kernel), ?_⟩
  · decide +kernel
  · decide +kernel
  · unfold PolySearches; decide +kernel
  · decide +kernel

/-! ### C19 -/

theorem stored_all_enc (E : Ext) (ty : PolyType) {data : List F64} (hlen : data.length ≤ 2 ^ 53)
    (hn : ∀ y ∈ data, y.isNaN = false) {x y : F64} (hx : x ∈ data) (hy : y ∈ data) (hxy : x.lt y = true) {e : F64} {bs : Bytes}
    (h : ty.comp.compress E data = .ok bs ∨ ty.comp.compressBounded E data e = .ok bs) (hall : StoresAll data bs) :
    ∃ st k, DataStats.new data = .ok st ∧ st.max.feq st.min = false ∧ 1 ≤ k ∧ k ≤ 133 ∧ bs = ((Poly.start st ty).stored data k).enc ∧
      ((Poly.start st ty).stored data k).dataPoints.length = data.length := by
  have hne : data ≠ [] := by rintro rfl; simp at hx
  have hn1 : 1 ≤ data.length := List.length_pos_of_ne_nil hne
  obtain ⟨st, hst⟩ := stats_ok hne
  have hc := stats_nonconst hn hst hx hy hxy
  have key : ∃ k, 1 ≤ k ∧ k ≤ 133 ∧ bs = ((Poly.start st ty).stored data k).enc ∨ bs = (Poly.start st ty).enc := by
    rcases h with h | h
    · rw [comp_compress E ty data hne] at h
      obtain ⟨c, h1, ⟨h2, _⟩ | ⟨_, k, h3, h4, rfl⟩⟩ := poly_plain_cases data hne ty st hst
      · rw [hc] at h2; exact absurd h2 (by decide)
      · rw [h1] at h; injection h with h
        exact ⟨k, Or.inl ⟨h3, h4, h.symm⟩⟩
    · rw [(comp_bounded E ty data hne e).2] at h
      obtain ⟨c, r, h1, h2, h3⟩ := poly_bounded_cases E data hne ty e st hst
      rw [h1] at h
      injection h with h
      rw [← h, h2]
      rcases h3 with ⟨q, _⟩ | ⟨_, q, rfl⟩ | ⟨_, _, s, hs, rfl, _⟩
      · rw [hc] at q; exact absurd q (by decide)
      · exact ⟨0, Or.inr rfl⟩
      · obtain ⟨k, k1, k2, k3⟩ := polyDone_stored hs
        exact ⟨k, Or.inl ⟨k1, k2, by rw [k3]⟩⟩
  obtain ⟨k, ⟨k1, k2, rfl⟩ | rfl⟩ := key
  · refine ⟨st, k, hst, hc, k1, k2, rfl, ?_⟩
    obtain ⟨c, h1, h2⟩ := hall
    rw [poly_unwrap _ (lt_of_le_of_lt (stored_length_le hn1 k1 _) (lt_of_le_of_lt hlen (by norm_num)))] at h1
    injection h1 with h1
    rw [← h1] at h2
    rw [← h2]
    simp [Poly.seen]
  · exfalso
    obtain ⟨c, h1, h2⟩ := hall
    rw [poly_unwrap (Poly.start st ty) (Nat.two_pow_pos 64)] at h1
    injection h1 with h1
    rw [← h1] at h2
    have : (0 : Nat) = data.length := h2
    omega

/-- Specification: rounding to five decimals does not change the sample, or it is the smallest (largest) of the chunk and would be rounded down (up), which the decoder
undoes. -/
def Survives (data : List F64) (x : F64) : Prop :=
  (roundF64 x 5).feq x = true ∨ ((∀ y ∈ data, x.le y = true) ∧ (roundF64 x 5).lt x = true) ∨ ((∀ y ∈ data, y.le x = true) ∧ x.lt (roundF64 x 5) = true)

theorem val_scaled {x y : F64} : x.val = y.val ↔ x.scaled = y.scaled := val_eq_iff (by decide)

/-- **C19, exactly.** When a frame stores every sample (finite, zero or of magnitude in `[2^-64, 2^63)`), whatever interpolation returns the knots at the knots,
decompression returns every sample to five decimals, and a sample comes back with its value exactly when five decimals do not change it (or change it beyond
the extremes of the chunk). -/
theorem C19_exact (E : Ext) (hE : E.Interpolates) (ty : PolyType) (data : List F64) (hlen : data.length ≤ 2 ^ 53)
    (hfin : AllFinite data) (hr : ∀ x ∈ data, InRange x)
    (x y : F64) (hx : x ∈ data) (hy : y ∈ data) (hxy : x.lt y = true) (e : F64) (bs : Bytes)
    (h : ty.comp.compress E data = .ok bs ∨ ty.comp.compressBounded E data e = .ok bs) (hall : StoresAll data bs) :
    ∃ out, ty.comp.decompress E data.length bs = .ok out ∧ SameTo5Decimals data out ∧
      ∀ i (h1 : i < out.length) (h2 : i < data.length), (out[i]).val = (data[i]).val ↔ Survives data data[i] := by
  have hn : ∀ y ∈ data, y.isNaN = false := fun y hy => isFinite_not_nan (hfin y hy)
  have hne : data ≠ [] := by rintro rfl; simp at hx
  obtain ⟨st, k, hst, hc, k1, k2, rfl, hk⟩ := stored_all_enc E ty hlen hn hx hy hxy h hall
  obtain ⟨out, o1, o2, o3⟩ := poly_all_out E hE ty hlen hfin hr hst hc k1 k2 hk
  obtain ⟨out', o1', o2', -⟩ := poly_all_accuracy E hE ty hlen hfin hr hst hc k1 k2 hk
  rw [o1] at o1'
  obtain rfl := Except.ok.inj o1'
  obtain ⟨st', a, g1, hinv, e1, e2, -⟩ := stats_spec hne hn
  rw [hst] at g1; injection g1 with g1; subst g1
  have hmaxm : st.max ∈ data := e1 ▸ List.mem_of_getElem? hinv.max_at
  have hminm : st.min ∈ data := e2 ▸ List.mem_of_getElem? hinv.min_at
  refine ⟨out, o1, o2', fun i h1 h2 => ?_⟩
  obtain ⟨v, v1, v2⟩ := o3 i h1 h2
  have hxm := List.getElem_mem h2
  generalize data[i] = z at v1 hxm ⊢
  rw [v2, roundAndLimit_eq]
  have hzn := hn z hxm
  -- rounding does not tell `v` from `z`
  have hrv : (roundF64 v 5).scaled = (roundF64 z 5).scaled := by
    rcases (feq_iff_eq_or_zero (feq_iff.1 v1).1 hzn).1 v1 with h | ⟨h, _⟩
    · rw [h]
    · have hv0 : v.val = 0 := by
        rw [val_eq (by decide), show v.scaled = 0 by rw [← Int.natAbs_eq_zero, scaled_natAbs]; exact h]; simp
      have hz0 : z.val = 0 := by rw [← hv0]; exact (val_scaled.2 (feq_iff.1 v1).2.2).symm
      exact val_scaled.1 (by rw [(zero_round5 v hv0).1, (zero_round5 z hz0).1])
  have hvn := (feq_iff.1 v1).1
  have hRn : (roundF64 z 5).isNaN = false := by rw [roundF64_nan z (by norm_num)]; exact hzn
  have hRv : (roundF64 v 5).isNaN = false := by rw [roundF64_nan v (by norm_num)]; exact hvn
  have hle : st.min.scaled ≤ z.scaled := by rw [e2]; exact hinv.min_le z hxm
  have hge : z.scaled ≤ st.max.scaled := by rw [e1]; exact hinv.max_le z hxm
  have hS : Survives data z ↔ (roundF64 z 5).scaled = z.scaled ∨ (z.scaled = st.min.scaled ∧ (roundF64 z 5).scaled < z.scaled) ∨
      (z.scaled = st.max.scaled ∧ z.scaled < (roundF64 z 5).scaled) := by
    unfold Survives
    constructor
    · rintro (h | ⟨h, h'⟩ | ⟨h, h'⟩)
      · exact .inl (feq_iff.1 h).2.2
      · have := (le_iff.1 (h _ hminm)).2.2
        exact .inr (.inl ⟨by omega, (lt_iff.1 h').2.2⟩)
      · have := (le_iff.1 (h _ hmaxm)).2.2
        exact .inr (.inr ⟨by omega, (lt_iff.1 h').2.2⟩)
    · rintro (h | ⟨h, h'⟩ | ⟨h, h'⟩)
      · exact .inl (feq_iff.2 ⟨hRn, hzn, h⟩)
      · refine .inr (.inl ⟨fun y hy => le_iff.2 ⟨hzn, hn y hy, ?_⟩, lt_iff.2 ⟨hRn, hzn, h'⟩⟩)
        have := hinv.min_le y hy
        rw [h, e2]; exact this
      · refine .inr (.inr ⟨fun y hy => le_iff.2 ⟨hn y hy, hzn, ?_⟩, lt_iff.2 ⟨hzn, hRn, h'⟩⟩)
        have := hinv.max_le y hy
        rw [h, e1]; exact this
  rw [hS, val_scaled]
  by_cases q1 : (roundF64 v 5).lt st.min = true
  · rw [if_pos q1]
    have := (lt_iff.1 q1).2.2
    constructor
    · intro h; exact .inr (.inl ⟨h.symm, by omega⟩)
    · rintro (h | ⟨h, h'⟩ | ⟨h, h'⟩) <;> omega
  · rw [if_neg q1]
    have q1' : st.min.scaled ≤ (roundF64 v 5).scaled := by
      by_contra hlt
      exact q1 (lt_iff.2 ⟨hRv, hn _ hminm, by omega⟩)
    by_cases q2 : st.max.lt (roundF64 v 5) = true
    · rw [if_pos q2]
      have := (lt_iff.1 q2).2.2
      constructor
      · intro h; exact .inr (.inr ⟨h.symm, by omega⟩)
      · rintro (h | ⟨h, h'⟩ | ⟨h, h'⟩) <;> omega
    · rw [if_neg q2]
      have q2' : (roundF64 v 5).scaled ≤ st.max.scaled := by
        by_contra hlt
        exact q2 (lt_iff.2 ⟨hn _ hmaxm, hRv, by omega⟩)
      constructor
      · intro h; exact .inl (by omega)
      · rintro (h | ⟨h, h'⟩ | ⟨h, h'⟩) <;> omega

/-- Both answers occur: 1.000001 in the middle of a chunk does not survive, 2 does, and 1.000001 as the smallest sample does. -/
example : ¬ Survives sixDecimals millionth ∧ Survives sixDecimals (F64.lit 2) ∧ Survives [millionth, F64.lit 2] millionth := by
  unfold Survives
  refine ⟨?_, ?_, ?_⟩ <;> decide +kernel

end Atsc
