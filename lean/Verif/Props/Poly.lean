import Verif.Lemmas.Poly
import Verif.Lemmas.FloatMono
import Verif.Props.Simple
import Verif.Props.Utils
import Verif.Spec.Interp
import Verif.Spec.Dummy
/- C16-C19: the Polynomial and IDW compressors. -/
namespace Atsc
open FP

theorem comp_compress (E : Ext) (ty : PolyType) (data : List F64) (hne : data ≠ []) :
    ty.comp.compress E data = polynomial data ty := by
  obtain ⟨st, hst⟩ := stats_ok hne
  cases ty <;> simp only [PolyType.comp, Compressor.compress, hst, ok_bind]

theorem comp_bounded (E : Ext) (ty : PolyType) (data : List F64) (hne : data ≠ []) (e : F64) :
    ty.comp.boundedResults E data e = polynomialAllowedError E data e ty ∧
    ty.comp.compressBounded E data e = (polynomialAllowedError E data e ty >>= fun r => .ok r.data) := by
  obtain ⟨st, hst⟩ := stats_ok hne
  cases ty <;> simp only [PolyType.comp, Compressor.compressBounded, Compressor.boundedResults, hst, ok_bind, and_self]

theorem comp_decompress (E : Ext) (ty : PolyType) (n : Nat) (bs : Bytes) :
    ty.comp.decompress E n bs = polyToData E n bs := by
  cases ty <;> rfl

/-- The compressor before the search. -/
def Poly.start (st : DataStats) (ty : PolyType) : Poly := Poly.new st.min st.max ty st.bitdepth

theorem poly_plain_cases (data : List F64) (hne : data ≠ []) (ty : PolyType) (st : DataStats) (hst : DataStats.new data = .ok st) :
    ∃ c, polynomial data ty = .ok c.enc ∧
      ((st.max.feq st.min = true ∧ c = Poly.start st ty) ∨
       (st.max.feq st.min = false ∧ ∃ k, 1 ≤ k ∧ k ≤ 133 ∧ c = (Poly.start st ty).stored data k)) := by
  have hn : 1 ≤ data.length := List.length_pos_of_ne_nil hne
  unfold polynomial
  simp only [hst, ok_bind]
  cases hc : st.max.feq st.min with
  | true =>
    refine ⟨Poly.start st ty, ?_, Or.inl ⟨rfl, rfl⟩⟩
    have : (Poly.new st.min st.max ty st.bitdepth).compress data = .ok (Poly.start st ty) := by
      unfold Poly.compress Poly.compressHinted
      rw [if_pos (by exact hc)]; rfl
    rw [this]; rfl
  | false =>
    have hb : 1 ≤ baselinePoints data.length := by unfold baselinePoints; split_ifs <;> omega
    have hk := hintStep_le (n := data.length) (points := baselinePoints data.length) (le_refl _)
    refine ⟨_, ?_, Or.inr ⟨rfl, _, hk.1, hk.2, rfl⟩⟩
    have : (Poly.new st.min st.max ty st.bitdepth).compress data = .ok ((Poly.start st ty).stored data _) :=
      hinted_ok _ data _ hc hb hn
    rw [this]; rfl

theorem poly_bounded_cases (E : Ext) (data : List F64) (hne : data ≠ []) (ty : PolyType) (e : F64) (st : DataStats)
    (hst : DataStats.new data = .ok st) :
    ∃ c r, polynomialAllowedError E data e ty = .ok r ∧ r.data = c.enc ∧
      ((st.max.feq st.min = true ∧ c = Poly.start st ty ∧ r.error = FP.zero) ∨
       (st.max.feq st.min = false ∧ (roundF64 e 3).lt (roundF64 (e.add (F64.lit 1)) 4) = false ∧ c = Poly.start st ty) ∨
       (st.max.feq st.min = false ∧ (roundF64 e 3).lt (roundF64 (e.add (F64.lit 1)) 4) = true ∧
         ∃ s, PolyDone E (Poly.start st ty) data (roundF64 e 3) s ∧ c = s.c ∧ r.error = s.err)) := by
  have hn : 1 ≤ data.length := List.length_pos_of_ne_nil hne
  unfold polynomialAllowedError
  simp only [hst, ok_bind]
  cases hc : st.max.feq st.min with
  | true =>
    refine ⟨Poly.start st ty, { data := (Poly.start st ty).enc, error := FP.zero }, ?_, rfl, Or.inl ⟨rfl, rfl, rfl⟩⟩
    have : (Poly.new st.min st.max ty st.bitdepth).compressBounded E data e = .ok (Poly.start st ty) := by
      unfold Poly.compressBounded
      rw [if_pos (by exact hc)]; rfl
    rw [this]; rfl
  | false =>
    have hcb : (Poly.new st.min st.max ty st.bitdepth).compressBounded E data e =
        (Poly.loop E data (roundF64 e 3) 23 ((Poly.start st ty).loopInit e) >>= fun s => .ok { s.c with error := some s.err }) := by
      unfold Poly.compressBounded
      rw [if_neg (by show ¬ st.max.feq st.min = true; rw [hc]; decide)]; rfl
    rw [hcb]
    cases hent : (roundF64 e 3).lt (roundF64 (e.add (F64.lit 1)) 4) with
    | false =>
      have : Poly.loop E data (roundF64 e 3) 23 ((Poly.start st ty).loopInit e) = .ok ((Poly.start st ty).loopInit e) := by
        unfold Poly.loop
        rw [if_neg (by show ¬ (roundF64 e 3).lt (roundF64 (e.add (F64.lit 1)) 4) = true; rw [hent]; decide)]
      rw [this]
      exact ⟨Poly.start st ty, _, rfl, rfl, Or.inr (Or.inl ⟨rfl, rfl, rfl⟩)⟩
    | true =>
      obtain ⟨s, h1, _, h3⟩ := poly_loop E (Poly.start st ty) data (roundF64 e 3) hc hn 23 ((Poly.start st ty).loopInit e)
        (Nat.zero_le _) (Nat.le_refl _) (Or.inr ⟨rfl, hent⟩)
      rw [h1]
      exact ⟨s.c, _, rfl, rfl, Or.inr (Or.inr ⟨rfl, rfl, s, h3, rfl, rfl⟩)⟩

theorem polyDone_stored {E : Ext} {c0 : Poly} {data : List F64} {t : F64} {s : PolyLoop} (h : PolyDone E c0 data t s) :
    ∃ k, 1 ≤ k ∧ k ≤ 133 ∧ s.c = c0.stored data k := by
  rcases h with ⟨⟨k, h1, h2, h3, _⟩, _⟩ | ⟨k, h1, h2, h3, _⟩ <;> exact ⟨k, h1, h2, h3⟩

theorem stored_length_le {data : List F64} {k : Nat} (hn : 1 ≤ data.length) (hk : 1 ≤ k) (c : Poly) :
    (c.stored data k).dataPoints.length ≤ data.length := by
  rw [stored_len]
  obtain ⟨h1, h2⟩ := positions_spec hn hk
  have hsub : (positions data.length k) ⊆ List.range data.length := fun i hi => List.mem_range.2 ((h2 i).1 hi).1
  have := (List.Nodup.subperm (h1.imp fun h => Nat.ne_of_lt h) hsub).length_le
  simpa using this

/-! ### C16 -/

/-- What a decoded Polynomial/IDW frame of a non-constant chunk looks like: the decoder's positions, the values stored for
them, and the step. -/
def PositionsAgree (data : List F64) (bd : Bitdepth) (bs : Bytes) : Prop :=
  ∃ c step ps, unwrapDec Poly.dec bs = .ok c ∧ c.pointStep = step ∧ 1 ≤ step ∧ step ≤ 133 ∧
    c.getPositions data.length = .ok ps ∧ StepPositions data.length step ps ∧ c.dataPoints.length = ps.length ∧
    ∀ (j i : Nat), ps[j]? = some i → ∃ x, data[i]? = some x ∧ c.dataPoints[j]? = some (castBD bd x)

theorem positionsAgree_stored {data : List F64} (hne : data ≠ []) (hlen : data.length < 2 ^ 64) (c0 : Poly) {k : Nat}
    (h1 : 1 ≤ k) (h2 : k ≤ 133) : PositionsAgree data c0.bitdepth (c0.stored data k).enc := by
  have hn : 1 ≤ data.length := List.length_pos_of_ne_nil hne
  obtain ⟨p1, p2⟩ := positions_spec hn h1
  have hmod : k % 256 % 256 = k := by omega
  refine ⟨(c0.stored data k).seen, k, positions data.length k,
    poly_unwrap _ (lt_of_le_of_lt (stored_length_le hn h1 c0) hlen), hmod, h1, h2, ?_, ⟨p1, p2⟩, ?_, ?_⟩
  · have hps : (c0.stored data k).seen.pointStep = k := hmod
    unfold Poly.getPositions
    rw [hps, if_neg (by omega), if_neg (by omega)]
  · simp [Poly.seen, Poly.stored]
  · intro j i hj
    have hi : i < data.length := ((p2 i).1 (List.mem_of_getElem? hj)).1
    refine ⟨data[i], List.getElem?_eq_getElem hi, ?_⟩
    simp only [Poly.seen, Poly.stored, List.getElem?_map, hj, Option.map_some]
    rw [List.getD_eq_getElem _ _ hi]

theorem stats_nonconst {data : List F64} (hn : ∀ y ∈ data, y.isNaN = false) {st : DataStats} (hst : DataStats.new data = .ok st)
    {x y : F64} (hx : x ∈ data) (hy : y ∈ data) (hxy : x.lt y = true) : st.max.feq st.min = false := by
  have hne : data ≠ [] := by rintro rfl; simp at hx
  obtain ⟨st', a, g1, hinv, e1, e2, -⟩ := stats_spec hne hn
  rw [hst] at g1; injection g1 with g1; subst g1
  rw [Bool.eq_false_iff]
  intro h
  have h3 := (feq_iff.1 h).2.2
  rw [e1, e2] at h3
  have h4 := hinv.min_le x hx
  have h5 := hinv.max_le y hy
  have := (lt_iff.1 hxy).2.2
  omega

/-- C16, plain compression: the positions the decoder interpolates through are the positions whose samples the encoder
stored, in the same order; the step fits its byte and is never zero. -/
theorem C16_positions_plain (E : Ext) (ty : PolyType) (data : List F64) (hlen : data.length < 2 ^ 64)
    (hn : ∀ y ∈ data, y.isNaN = false) (x y : F64) (hx : x ∈ data) (hy : y ∈ data) (hxy : x.lt y = true) :
    ∃ st bs, DataStats.new data = .ok st ∧ ty.comp.compress E data = .ok bs ∧ PositionsAgree data st.bitdepth bs := by
  have hne : data ≠ [] := by rintro rfl; simp at hx
  obtain ⟨st, hst⟩ := stats_ok hne
  have hc := stats_nonconst hn hst hx hy hxy
  rw [comp_compress E ty data hne]
  obtain ⟨c, h1, ⟨h2, _⟩ | ⟨_, k, h3, h4, rfl⟩⟩ := poly_plain_cases data hne ty st hst
  · rw [hc] at h2; exact absurd h2 (by decide)
  · exact ⟨st, _, hst, h1, positionsAgree_stored hne hlen (Poly.start st ty) h3 h4⟩

/-- C16, error-bounded compression: the same for every round of the search, whatever the interpolation library returns.
The error bound is any finite number up to `2^40`; a larger one may skip the search (`C16_search_skipped`). -/
theorem C16_positions_bounded (E : Ext) (ty : PolyType) (data : List F64) (hlen : data.length < 2 ^ 64)
    (hn : ∀ y ∈ data, y.isNaN = false) (x y : F64) (hx : x ∈ data) (hy : y ∈ data) (hxy : x.lt y = true)
    (e : F64) (he : e.isFinite = true) (he' : |e.val| ≤ 2 ^ 40) :
    ∃ st bs, DataStats.new data = .ok st ∧ ty.comp.compressBounded E data e = .ok bs ∧ PositionsAgree data st.bitdepth bs := by
  have hne : data ≠ [] := by rintro rfl; simp at hx
  obtain ⟨st, hst⟩ := stats_ok hne
  have hc := stats_nonconst hn hst hx hy hxy
  rw [(comp_bounded E ty data hne e).2]
  obtain ⟨c, r, h1, h2, h3⟩ := poly_bounded_cases E data hne ty e st hst
  rw [h1]
  refine ⟨st, _, hst, rfl, ?_⟩
  rw [h2]
  rcases h3 with ⟨h, _⟩ | ⟨_, h, _⟩ | ⟨_, _, s, hs, rfl, _⟩
  · rw [hc] at h; exact absurd h (by decide)
  · rw [search_entered he he'] at h; exact absurd h (by decide)
  · obtain ⟨k, k1, k2, k3⟩ := polyDone_stored hs
    rw [k3]
    exact positionsAgree_stored hne hlen (Poly.start st ty) k1 k2

/-- C16: a bound so large that `bound + 1` rounds to itself (for example `+inf` or `1e38`) skips the search: no sample is stored. -/
theorem C16_search_skipped (E : Ext) (ty : PolyType) (data : List F64) (hne : data ≠ [])
    (hn : ∀ y ∈ data, y.isNaN = false) (x y : F64) (hx : x ∈ data) (hy : y ∈ data) (hxy : x.lt y = true)
    (e : F64) (he : (roundF64 e 3).lt (roundF64 (e.add (F64.lit 1)) 4) = false) :
    ∃ bs c, ty.comp.compressBounded E data e = .ok bs ∧ unwrapDec Poly.dec bs = .ok c ∧ c.dataPoints = [] := by
  obtain ⟨st, hst⟩ := stats_ok hne
  have hc := stats_nonconst hn hst hx hy hxy
  rw [(comp_bounded E ty data hne e).2]
  obtain ⟨c, r, h1, h2, h3⟩ := poly_bounded_cases E data hne ty e st hst
  rw [h1]
  refine ⟨_, c.seen, rfl, ?_, ?_⟩
  · rw [h2]; apply poly_unwrap
    rcases h3 with ⟨_, rfl, _⟩ | ⟨_, _, rfl⟩ | ⟨_, h, _⟩
    · exact Nat.two_pow_pos 64
    · exact Nat.two_pow_pos 64
    · rw [he] at h; exact absurd h (by decide)
  · rcases h3 with ⟨_, rfl, _⟩ | ⟨_, _, rfl⟩ | ⟨_, h, _⟩
    · rfl
    · rfl
    · rw [he] at h; exact absurd h (by decide)

example : (roundF64 (FP.inf false : F64) 3).lt (roundF64 ((FP.inf false : F64).add (F64.lit 1)) 4) = false := by decide +kernel

/-! ### C17, and the Polynomial/IDW part of C07 -/

/-- Every decoded sample is NaN or between two samples of the chunk. -/
def WithinChunk (data out : List F64) : Prop :=
  ∀ y ∈ out, y.isNaN = false → (∃ a ∈ data, a.le y = true) ∧ ∃ b ∈ data, y.le b = true

theorem poly_toData_within (E : Ext) {data : List F64} (hne : data ≠ []) (hn : ∀ y ∈ data, y.isNaN = false) {st : DataStats}
    (hst : DataStats.new data = .ok st) (c : Poly) (h1 : c.min = st.min) (h2 : c.max = st.max) (h3 : c.pointStep ≠ 0) :
    ∃ out, c.toData E data.length = .ok out ∧ out.length = data.length ∧ WithinChunk data out := by
  obtain ⟨st', a, g1, hinv, e1, e2, -⟩ := stats_spec hne hn
  rw [hst] at g1; injection g1 with g1; subst g1
  have hmaxm : st.max ∈ data := e1 ▸ List.mem_of_getElem? hinv.max_at
  have hminm : st.min ∈ data := e2 ▸ List.mem_of_getElem? hinv.min_at
  have hle : st.min.le st.max = true := le_iff.2 ⟨hn _ hminm, hn _ hmaxm, by rw [e2]; exact hinv.min_le _ hmaxm⟩
  unfold Poly.toData
  split_ifs with hc
  · refine ⟨_, rfl, List.length_replicate, fun y hy _ => ?_⟩
    obtain rfl := List.eq_of_mem_replicate hy
    rw [h2]
    have := le_iff.2 ⟨hn _ hmaxm, hn _ hmaxm, le_refl _⟩
    exact ⟨⟨_, hmaxm, this⟩, ⟨_, hmaxm, this⟩⟩
  · obtain ⟨out, o1, o2, o3⟩ := interpolate_ok E c data.length (List.length_pos_of_ne_nil hne) h3
    refine ⟨out, o1, o2, fun y hy hyn => ?_⟩
    obtain ⟨v, rfl⟩ := o3 y hy
    rw [h1, h2] at hyn ⊢
    obtain ⟨k1, k2⟩ := C32_clamped v st.min st.max 5 (by norm_num) hle
    cases hv : v.isNaN with
    | true => rw [k2 hv] at hyn; exact absurd hyn (by decide)
    | false => exact ⟨⟨_, hminm, (k1 hv).1⟩, ⟨_, hmaxm, (k1 hv).2⟩⟩

theorem poly_frame_within (E : Ext) {data : List F64} (hne : data ≠ []) (hlen : data.length < 2 ^ 64)
    (hn : ∀ y ∈ data, y.isNaN = false) {st : DataStats} (hst : DataStats.new data = .ok st) (ty : PolyType) (c : Poly)
    (h : c = Poly.start st ty ∨ ∃ k, 1 ≤ k ∧ k ≤ 133 ∧ c = (Poly.start st ty).stored data k) :
    ∃ out, ty.comp.decompress E data.length c.enc = .ok out ∧ out.length = data.length ∧ WithinChunk data out := by
  rw [comp_decompress]
  rcases h with rfl | ⟨k, h1, h2, rfl⟩
  · rw [polyToData_enc E _ (Poly.start st ty) (Nat.two_pow_pos 64)]
    exact poly_toData_within E hne hn hst _ rfl rfl (by show 1 % 256 ≠ 0; decide)
  · have hn1 : 1 ≤ data.length := List.length_pos_of_ne_nil hne
    rw [polyToData_enc E _ _ (lt_of_le_of_lt (stored_length_le hn1 h1 _) hlen)]
    refine poly_toData_within E hne hn hst _ rfl rfl ?_
    show k % 256 % 256 ≠ 0
    omega

/-- C17 (and C07 for Polynomial/IDW), plain compression: for every chunk without NaN and whatever the interpolation library
returns, decompression succeeds with as many samples, each of them NaN or within the chunk's range. -/
theorem C17_range_plain (E : Ext) (ty : PolyType) (data : List F64) (hne : data ≠ []) (hlen : data.length < 2 ^ 64)
    (hn : ∀ y ∈ data, y.isNaN = false) :
    ∃ bs out, ty.comp.compress E data = .ok bs ∧ ty.comp.decompress E data.length bs = .ok out ∧
      out.length = data.length ∧ WithinChunk data out := by
  obtain ⟨st, hst⟩ := stats_ok hne
  rw [comp_compress E ty data hne]
  obtain ⟨c, h1, h2⟩ := poly_plain_cases data hne ty st hst
  obtain ⟨out, h3⟩ := poly_frame_within E hne hlen hn hst ty c (by
    rcases h2 with ⟨_, h⟩ | ⟨_, h⟩
    · exact Or.inl h
    · exact Or.inr h)
  exact ⟨_, out, h1, h3⟩

/-- C17, error-bounded compression, for every bound (even NaN). -/
theorem C17_range_bounded (E : Ext) (ty : PolyType) (data : List F64) (hne : data ≠ []) (hlen : data.length < 2 ^ 64)
    (hn : ∀ y ∈ data, y.isNaN = false) (e : F64) :
    ∃ bs out, ty.comp.compressBounded E data e = .ok bs ∧ ty.comp.decompress E data.length bs = .ok out ∧
      out.length = data.length ∧ WithinChunk data out := by
  obtain ⟨st, hst⟩ := stats_ok hne
  rw [(comp_bounded E ty data hne e).2]
  obtain ⟨c, r, h1, h2, h3⟩ := poly_bounded_cases E data hne ty e st hst
  obtain ⟨out, h4⟩ := poly_frame_within E hne hlen hn hst ty c (by
    rcases h3 with ⟨_, h, _⟩ | ⟨_, _, h⟩ | ⟨_, _, s, hs, rfl, _⟩
    · exact Or.inl h
    · exact Or.inl h
    · exact Or.inr (polyDone_stored hs))
  exact ⟨_, out, by rw [h1]; rfl, by rw [h2]; exact h4.1, h4.2⟩

/-- A concrete non-constant chunk: 10 samples, so the first round stores only every third one. -/
def rampData : List F64 := (List.range 10).map fun i : Nat => F64.lit (i + 1)

example : (∀ y ∈ rampData, y.isNaN = false) ∧ F64.lit 1 ∈ rampData ∧ F64.lit 2 ∈ rampData ∧ (F64.lit 1).lt (F64.lit 2) = true := by
  decide +kernel

/-! ### C18 -/

/-- C18: the search of the bounded Polynomial/IDW compressor ends after at most 23 rounds, for every chunk and bound
(`fuel` is the number of rounds the model allows: allowing more changes nothing). -/
theorem C18_terminates (E : Ext) (c : Poly) (data : List F64) (hne : data ≠ []) (e : F64) (hc : c.max.feq c.min = false)
    (fuel : Nat) (hf : 23 ≤ fuel) :
    ∃ s, Poly.loop E data (roundF64 e 3) fuel (c.loopInit e) = .ok s ∧ s.iterations ≤ 23 := by
  cases hent : (roundF64 e 3).lt (roundF64 (e.add (F64.lit 1)) 4) with
  | false =>
    refine ⟨c.loopInit e, ?_, Nat.zero_le _⟩
    unfold Poly.loop
    rw [if_neg (by show ¬ (roundF64 e 3).lt (roundF64 (e.add (F64.lit 1)) 4) = true; rw [hent]; decide)]
  | true =>
    obtain ⟨s, h1, h2, _⟩ := poly_loop E c data (roundF64 e 3) hc (List.length_pos_of_ne_nil hne) fuel (c.loopInit e)
      (Nat.zero_le _) (by show 23 ≤ fuel + 0; omega) (Or.inr ⟨rfl, hent⟩)
    exact ⟨s, h1, h2⟩

theorem castBD_self {data : List F64} (hfin : AllFinite data) (hr : ∀ x ∈ data, InRange x) {st : DataStats}
    (hst : DataStats.new data = .ok st) {x : F64} (hx : x ∈ data) (hz : x.val = 0 → x.sign = false) :
    castBD st.bitdepth x = x := by
  have h := castBD_exact hfin (fun y hy => inRange_iff.1 (hr y hy)) hst hx
  have hfx := hfin x hx
  have hf := (castBD_val hfin hr hst hx).2
  rcases (feq_iff_eq_or_zero (isFinite_not_nan hf) (isFinite_not_nan hfx)).1
    (feq_iff.2 ⟨isFinite_not_nan hf, isFinite_not_nan hfx, h.1⟩) with h1 | ⟨_, h2⟩
  · exact h1
  · have hx0 : x = FP.zero := by
      rw [ext_iff']
      refine ⟨?_, ?_⟩
      · apply hz
        rw [val_eq (by decide), show x.scaled = 0 by rw [← Int.natAbs_eq_zero, scaled_natAbs]; exact h2]; simp
      · have : x.mag.val = 0 := magVal_eq_zero.1 h2
        rw [this]; rfl
    rw [hx0]
    generalize st.bitdepth = bd
    cases bd <;> decide +kernel

theorem interpolate_seen (E : Ext) {data : List F64} (hne : data ≠ []) {st : DataStats} (ty : PolyType) {k : Nat} (h1 : 1 ≤ k)
    (h2 : k ≤ 133) (hself : ∀ x ∈ data, castBD st.bitdepth x = x) :
    ((Poly.start st ty).stored data k).seen = (Poly.start st ty).stored data k := by
  have hn : 1 ≤ data.length := List.length_pos_of_ne_nil hne
  have hd : ((positions data.length k).map fun i => data.getD i FP.zero).map (castBD st.bitdepth) =
      (positions data.length k).map fun i => data.getD i FP.zero := by
    rw [List.map_map]
    apply List.map_congr_left
    intro i hi
    have hi' := (((positions_spec hn h1).2 i).1 hi).1
    show castBD _ (data.getD i FP.zero) = _
    rw [List.getD_eq_getElem _ _ hi']
    exact hself _ (List.getElem_mem _)
  show ({ id := ty, dataPoints := List.map (castBD st.bitdepth) _, min := st.min, max := st.max, pointStep := k % 256 % 256, error := none, bitdepth := st.bitdepth } : Poly) = _
  rw [show ((Poly.start st ty).stored data k).dataPoints = (positions data.length k).map fun i => data.getD i FP.zero from rfl, hd,
    show k % 256 % 256 = k % 256 by omega]
  rfl

/-- The frame stores every sample of the chunk. -/
def StoresAll (data : List F64) (bs : Bytes) : Prop :=
  ∃ c, unwrapDec Poly.dec bs = .ok c ∧ c.dataPoints.length = data.length

/-- C18 for samples that survive storage: on a non-constant chunk the bounded search reports exactly the error (MAPE) of what the frame
decompresses to, unless it stored every sample, when it reports 0.  For all other chunks and bounds: `C18_exact`
(with samples outside `InRange` the report can be wrong, `C18_refuted_large`). -/
theorem C18_reported_error (E : Ext) (ty : PolyType) (data : List F64) (hlen : data.length < 2 ^ 64)
    (hfin : AllFinite data) (hr : ∀ x ∈ data, InRange x) (hz : ∀ x ∈ data, x.val = 0 → x.sign = false)
    (x y : F64) (hx : x ∈ data) (hy : y ∈ data) (hxy : x.lt y = true) (e : F64) (he : e.isFinite = true) (he' : |e.val| ≤ 2 ^ 40) :
    ∃ r out, ty.comp.boundedResults E data e = .ok r ∧ ty.comp.decompress E data.length r.data = .ok out ∧
      (calculateError data out = .ok r.error ∨ (r.error = FP.zero ∧ StoresAll data r.data)) := by
  have hne : data ≠ [] := by rintro rfl; simp at hx
  have hn1 : 1 ≤ data.length := List.length_pos_of_ne_nil hne
  have hn : ∀ y ∈ data, y.isNaN = false := fun y hy => isFinite_not_nan (hfin y hy)
  obtain ⟨st, hst⟩ := stats_ok hne
  have hc := stats_nonconst hn hst hx hy hxy
  rw [(comp_bounded E ty data hne e).1]
  obtain ⟨c, r, h1, h2, h3⟩ := poly_bounded_cases E data hne ty e st hst
  rcases h3 with ⟨h, _⟩ | ⟨_, h, _⟩ | ⟨_, _, s, hs, rfl, hre⟩
  · rw [hc] at h; exact absurd h (by decide)
  · rw [search_entered he he'] at h; exact absurd h (by decide)
  · have hself : ∀ x ∈ data, castBD st.bitdepth x = x := fun x hx => castBD_self hfin hr hst hx (hz x hx)
    have hdec : ∀ k, 1 ≤ k → k ≤ 133 → s.c = (Poly.start st ty).stored data k →
        ty.comp.decompress E data.length r.data = s.c.interpolate E data.length ∧ unwrapDec Poly.dec r.data = .ok s.c := by
      intro k k1 k2 k3
      have hl : s.c.dataPoints.length < 2 ^ 64 := by rw [k3]; exact lt_of_le_of_lt (stored_length_le hn1 k1 _) hlen
      rw [comp_decompress, h2, polyToData_enc E _ _ hl, poly_unwrap _ hl]
      rw [k3, interpolate_seen E hne ty k1 k2 hself]
      refine ⟨?_, rfl⟩
      unfold Poly.toData
      rw [if_neg]
      show ¬ st.max.feq st.min = true
      rw [hc]; decide
    rcases hs with ⟨⟨k, k1, k2, k3, out, k4, k5⟩, _⟩ | ⟨k, k1, k2, k3, k4, k5⟩
    · refine ⟨r, out, h1, ?_, Or.inl ?_⟩
      · rw [(hdec k k1 k2 k3).1]; exact k4
      · rw [hre]; exact k5
    · obtain ⟨out, h4, _, _⟩ := interpolate_ok E s.c data.length hn1 (by
        rw [k3]; show k % 256 ≠ 0; omega)
      refine ⟨r, out, h1, ?_, Or.inr ⟨?_, ?_⟩⟩
      · rw [(hdec k k1 k2 k3).1]; exact h4
      · rw [hre]; exact k5
      · exact ⟨s.c, (hdec k k1 k2 k3).2, k4⟩

/-- C18 on constant chunks: error 0 is reported and every sample comes back equal. -/
theorem C18_constant (E : Ext) (ty : PolyType) (data : List F64) (hne : data ≠ []) (hfin : AllFinite data)
    (hcst : ∀ x ∈ data, ∀ y ∈ data, x.val = y.val) (e : F64) :
    ∃ r out, ty.comp.boundedResults E data e = .ok r ∧ r.error = FP.zero ∧
      ty.comp.decompress E data.length r.data = .ok out ∧ SameValues out data := by
  have hn : ∀ y ∈ data, y.isNaN = false := fun y hy => isFinite_not_nan (hfin y hy)
  obtain ⟨st, a, hst, hinv, e1, e2, -⟩ := stats_spec hne hn
  have hmaxm : st.max ∈ data := e1 ▸ List.mem_of_getElem? hinv.max_at
  have hminm : st.min ∈ data := e2 ▸ List.mem_of_getElem? hinv.min_at
  have hc : st.max.feq st.min = true :=
    feq_iff.2 ⟨hn _ hmaxm, hn _ hminm, (val_eq_iff (by decide)).1 (hcst _ hmaxm _ hminm)⟩
  rw [(comp_bounded E ty data hne e).1]
  obtain ⟨c, r, h1, h2, h3⟩ := poly_bounded_cases E data hne ty e st hst
  rcases h3 with ⟨_, rfl, h⟩ | ⟨h, _⟩ | ⟨h, _⟩
  · refine ⟨r, List.replicate data.length st.max, h1, h, ?_, ?_⟩
    · rw [comp_decompress, h2, polyToData_enc E _ (Poly.start st ty) (Nat.two_pow_pos 64)]
      unfold Poly.toData
      rw [if_pos (by exact hc)]; rfl
    · refine ⟨by simp, fun i ha hb => ?_⟩
      rw [List.getElem_replicate]
      exact ⟨hcst _ hmaxm _ (List.getElem_mem _), hfin _ hmaxm, hfin _ (List.getElem_mem _)⟩
  · rw [hc] at h; exact absurd h (by decide)
  · rw [hc] at h; exact absurd h (by decide)

/-! ### C58 -/

/-- C58 (the part that holds, Polynomial/IDW): with a non-negative bound up to `2^40`, either every sample is stored, or the
decompressed chunk has a NaN sample or a reproduced zero (MAPE is not a number), or its MAPE exceeds the bound by at most
0.0006 plus float error. Missing: the full property asks for the bound itself, which is compared at 3/4 decimals, and zeros
(`C58_refuted_zero`). -/
theorem C58_poly_bound_partial (E : Ext) (ty : PolyType) (data : List F64) (hlen : data.length ≤ 2 ^ 53)
    (hfin : AllFinite data) (hr : ∀ x ∈ data, InRange x) (hz : ∀ x ∈ data, x.val = 0 → x.sign = false)
    (x y : F64) (hx : x ∈ data) (hy : y ∈ data) (hxy : x.lt y = true)
    (e : F64) (he : e.isFinite = true) (he0 : 0 ≤ e.val) (he' : e.val ≤ 2 ^ 40) :
    ∃ r out, ty.comp.boundedResults E data e = .ok r ∧ ty.comp.decompress E data.length r.data = .ok out ∧
      (StoresAll data r.data ∨ (∃ v ∈ out, v.isNaN = true) ∨
        (∃ i, ∃ ha : i < data.length, ∃ hb : i < out.length, (data[i]).val = 0 ∧ (out[i]).val = 0) ∨
        ∃ err, calculateError data out = .ok err ∧ err.isFinite = true ∧ err.val ≤ e.val + 6 / 10000 + e.val / 2 ^ 49) := by
  have hne : data ≠ [] := by rintro rfl; simp at hx
  have hn : ∀ y ∈ data, y.isNaN = false := fun y hy => isFinite_not_nan (hfin y hy)
  have hlen' : data.length < 2 ^ 64 := lt_of_le_of_lt hlen (by norm_num)
  have habs : |e.val| ≤ 2 ^ 40 := by rw [abs_of_nonneg he0]; exact he'
  obtain ⟨r, out, h1, h2, h3⟩ := C18_reported_error E ty data hlen' hfin hr hz x y hx hy hxy e he habs
  refine ⟨r, out, h1, h2, ?_⟩
  rcases h3 with h3 | ⟨_, h3⟩
  swap
  · exact Or.inl h3
  by_cases hnan : ∃ v ∈ out, v.isNaN = true
  · exact Or.inr (Or.inl hnan)
  -- the decompressed samples are finite: not NaN and within the chunk
  obtain ⟨bs, out', g1, g2, g3, g4⟩ := C17_range_bounded E ty data hne hlen' hn e
  have hrd : bs = r.data := by
    rw [(comp_bounded E ty data hne e).2, ← (comp_bounded E ty data hne e).1, h1] at g1
    injection g1 with g1; exact g1.symm
  rw [hrd, h2] at g2
  injection g2 with g2; subst g2
  have hof : AllFinite out := by
    intro v hv
    have hvn : v.isNaN = false := by
      rw [Bool.eq_false_iff]; exact fun h => hnan ⟨v, hv, h⟩
    obtain ⟨⟨a, ha, hav⟩, b, hb, hvb⟩ := g4 v hv hvn
    have h4 := (le_iff.1 hav).2.2
    have h5 := (le_iff.1 hvb).2.2
    rw [isFinite_iff]
    refine ⟨hvn, ?_⟩
    rw [Bool.eq_false_iff]
    intro hi
    have hm : v.absVal = magVal 52 (infMag 52 11) := by
      unfold FP.absVal; rw [show v.mag.val = infMag 52 11 by simpa [FP.isInf] using hi]
    have fin_lt : ∀ z ∈ data, z.absVal < magVal 52 (infMag 52 11) := by
      intro z hzm
      apply magVal_lt_iff.2
      have := hfin z hzm
      simpa [FP.isFinite] using this
    have ha' := fin_lt a ha
    have hb' := fin_lt b hb
    rw [← hm] at ha' hb'
    have e1 := scaled_natAbs a
    have e2 := scaled_natAbs b
    have e3 := scaled_natAbs v
    omega
  obtain ⟨err, k1, k2⟩ := C31_mape_nan_iff data out g3.symm hne hlen hfin hof
  by_cases hzero : ∃ i, ∃ ha : i < data.length, ∃ hb : i < out.length, (data[i]).val = 0 ∧ (out[i]).val = 0
  · exact Or.inr (Or.inr (Or.inl hzero))
  right; right; right
  have hen : err.isNaN = false := by rw [Bool.eq_false_iff]; exact fun h => hzero (k2.1 h)
  have hes : err.sign = false := by
    rcases C29_never_negative .mape data out err k1 with h | h
    · rw [hen] at h; exact absurd h (by decide)
    · exact h.1
  refine ⟨err, k1, ?_⟩
  have herr : err = r.error := by
    have k1' : calculateError data out = .ok err := k1
    rw [h3] at k1'; injection k1' with k1'; exact k1'.symm
  -- the stopping test
  obtain ⟨st, hst⟩ := stats_ok hne
  have hc := stats_nonconst hn hst hx hy hxy
  obtain ⟨c, r', q1, q2, q3⟩ := poly_bounded_cases E data hne ty e st hst
  rw [(comp_bounded E ty data hne e).1, q1] at h1
  injection h1 with h1; subst h1
  rcases q3 with ⟨h, _⟩ | ⟨_, h, _⟩ | ⟨_, _, s, hs, rfl, hre⟩
  · rw [hc] at h; exact absurd h (by decide)
  · rw [search_entered he habs] at h; exact absurd h (by decide)
  · rw [← herr] at hre
    rcases hs with ⟨_, hst⟩ | ⟨_, _, _, _, _, h0⟩
    · rw [← hre] at hst
      exact stop_test he he0 he' hen hes hst
    · rw [hre, h0]
      refine ⟨by decide, ?_⟩
      have : (FP.zero : F64).val = 0 := by unfold FP.val; norm_num [FP.zero, ofPat]
      rw [this]
      positivity

/-- A concrete chunk with a huge last sample: it is analysed as an integer chunk that fits a `u8`. -/
def bigTail : List F64 := [F64.lit 1, F64.lit 1, F64.lit 1, F64.lit 1, F64.lit 1, F64.lit 1, F64.lit 1, F64.lit (2 ^ 64)]

/-- C18 without the magnitude restriction is false: the search reports error 0 (measured before the samples are cast to the
storage type) for a frame that decompresses with a positive error. -/
theorem C18_refuted_large :
    ∃ r out err, Compressor.polynomial.boundedResults Ext.dummy bigTail (F64.lit 0) = .ok r ∧ r.error = FP.zero ∧
      Compressor.polynomial.decompress Ext.dummy bigTail.length r.data = .ok out ∧ calculateError bigTail out = .ok err ∧
      (FP.zero : F64).lt err = true := by
  have h : okAnd (Compressor.polynomial.boundedResults Ext.dummy bigTail (F64.lit 0)) (fun r => decide (r.error = FP.zero) &&
    okAnd (Compressor.polynomial.decompress Ext.dummy bigTail.length r.data) (fun out =>
      okAnd (calculateError bigTail out) (fun err => (FP.zero : F64).lt err))) = true := by decide +kernel
  obtain ⟨r, h1, h⟩ := okAnd_iff.1 h
  rw [Bool.and_eq_true, decide_eq_true_eq] at h
  obtain ⟨out, h2, h3⟩ := okAnd_iff.1 h.2
  obtain ⟨err, h4, h5⟩ := okAnd_iff.1 h3
  exact ⟨r, out, err, h1, h.1, h2, h4, h5⟩

/-- 0, 1, ..., 9 -/
def rampZero : List F64 := (List.range 10).map fun i : Nat => F64.lit i

/-- C58 is false when the chunk has a zero: MAPE is NaN, which ends the search after its first round even with error bound 0,
and sample 1 comes back as 3 (with step interpolation, a library satisfying the interpolation law). -/
theorem C58_refuted_zero :
    Ext.dummy.Interpolates ∧ ∃ r out, Compressor.polynomial.boundedResults Ext.dummy rampZero (F64.lit 0) = .ok r ∧
      Compressor.polynomial.decompress Ext.dummy 10 r.data = .ok out ∧
      rampZero[1]? = some (F64.lit 1) ∧ out[1]? = some (F64.lit 3) := by
  refine ⟨Ext.dummy_interpolates, ?_⟩
  have h : okAnd (Compressor.polynomial.boundedResults Ext.dummy rampZero (F64.lit 0)) (fun r =>
    okAnd (Compressor.polynomial.decompress Ext.dummy 10 r.data) (fun out =>
      decide (rampZero[1]? = some (F64.lit 1) ∧ out[1]? = some (F64.lit 3)))) = true := by decide +kernel
  obtain ⟨r, h1, h⟩ := okAnd_iff.1 h
  obtain ⟨out, h2, h3⟩ := okAnd_iff.1 h
  exact ⟨r, out, h1, h2, by simpa using h3⟩

theorem rampData_safe : AllFinite rampData ∧ (∀ x ∈ rampData, InRange x) ∧ ∀ x ∈ rampData, x.val = 0 → x.sign = false := by
  refine ⟨by unfold AllFinite; decide +kernel, fun x hx => ?_, fun x hx h => ?_⟩
  · simp only [rampData, List.mem_map, List.mem_range] at hx
    obtain ⟨i, hi, rfl⟩ := hx
    exact inRange_of_int (lit_val (by omega)).2 (by omega)
  · have : ∀ x ∈ rampData, x.sign = false := by decide +kernel
    exact this x hx

/-- The hypotheses of C16-C18 and C58 are met by a concrete chunk, whose frame does not store every sample. -/
example : ∃ r, (PolyType.comp .idw).boundedResults Ext.dummy rampData (F64.lit 1) = .ok r ∧ ¬ StoresAll rampData r.data := by
  have h : okAnd (Compressor.idw.boundedResults Ext.dummy rampData (F64.lit 1)) (fun r =>
    okAnd (unwrapDec Poly.dec r.data) fun c => decide (c.dataPoints.length = 4)) = true := by decide +kernel
  obtain ⟨r, h1, h⟩ := okAnd_iff.1 h
  obtain ⟨c, h2, h3⟩ := okAnd_iff.1 h
  refine ⟨r, h1, ?_⟩
  rintro ⟨c', h4, h5⟩
  rw [h2] at h4; injection h4 with h4; subst h4
  rw [decide_eq_true_eq] at h3
  rw [h3] at h5; exact absurd h5 (by decide)

/-! ### C19 -/

theorem lit_lt {i j : Nat} (h : i < j) (hj : j ≤ 2 ^ 53) : (F64.lit i).lt (F64.lit j) = true := by
  have hi := lit_val (n := (i : Int)) (by simp; omega)
  have hj := lit_val (n := (j : Int)) (by simpa using hj)
  refine lt_iff.2 ⟨isFinite_not_nan hi.1, isFinite_not_nan hj.1, (val_lt_iff (by decide)).1 ?_⟩
  rw [hi.2, hj.2]; exact_mod_cast h

theorem interp_all (E : Ext) (hE : E.Interpolates) (c : Poly) (n : Nat) (hn : 1 ≤ n) (hlen : n ≤ 2 ^ 53) (hs : c.pointStep ≠ 0)
    (hp : positions n c.pointStep = List.range n) (hdl : c.dataPoints.length = n)
    (hv : ∀ v ∈ c.dataPoints, v.isFinite = true ∧ |v.val| ≤ 2 ^ 1000) :
    ∃ out, c.interpolate E n = .ok out ∧ out.length = n ∧
      ∀ i (h1 : i < out.length) (h2 : i < c.dataPoints.length), ∃ v, v.feq c.dataPoints[i] = true ∧
        out[i] = roundAndLimit v c.min c.max 5 := by
  have hg : c.getPositions n = .ok (List.range n) := by
    unfold Poly.getPositions; rw [if_neg hs, if_neg (by omega), hp]
  unfold Poly.interpolate
  cases c.id with
  | polynomial =>
    simp only [Poly.polynomialToData, hg, ok_bind]
    set keys := splineKeys (List.range n) c.dataPoints with hkeys
    have hkl : keys.length = n := by simp [hkeys, splineKeys, hdl]
    have hk : ∀ i (h : i < keys.length), keys[i].t = F64.lit i ∧ keys[i].value = c.dataPoints[i]'(by omega) := by
      intro i h
      simp only [hkeys, splineKeys, List.getElem_mapIdx, List.getElem_zip, List.getElem_range]
      exact ⟨trivial, trivial⟩
    have hsort : keys.Pairwise fun a b => a.t.lt b.t = true := by
      rw [List.pairwise_iff_getElem]
      intro i j hi hj hij
      rw [(hk i hi).1, (hk j hj).1]
      exact lit_lt hij (by omega)
    have hfin : ∀ k ∈ keys, (∃ n : Nat, n < 2 ^ 53 ∧ k.t = F64.lit n) ∧ k.value.isFinite = true ∧ |k.value.val| ≤ 2 ^ 1000 := by
      intro k hk'
      obtain ⟨i, hi, rfl⟩ := List.mem_iff_getElem.1 hk'
      rw [(hk i hi).1, (hk i hi).2]
      exact ⟨⟨i, by omega, rfl⟩, hv _ (List.getElem_mem _)⟩
    have hcr : ∀ i (h : i < keys.length), keys[i].catmullRom = true → 0 < i ∧ i + 2 < keys.length := by
      intro i h hc
      simp only [hkeys, splineKeys, List.getElem_mapIdx, List.length_range, Bool.and_eq_true, decide_eq_true_eq] at hc
      omega
    have hsamp : ∀ i (h : i < c.dataPoints.length), ∃ v, E.spline keys (F64.lit i) = some v ∧ v.feq c.dataPoints[i] = true := by
      intro i h
      have hi : i < keys.length := by omega
      obtain ⟨v, h1, h2⟩ := hE.spline keys hsort hfin hcr keys[i] (List.getElem_mem hi)
      rw [(hk i hi).1] at h1; rw [(hk i hi).2] at h2
      exact ⟨v, h1, h2⟩
    have key : ∀ (m s : Nat) (prev : F64), s + m = n →
        ∀ i (h1 : i < (splineSamples (E.spline keys) c.min c.max 5 (List.range' s m) prev).length) (h2 : s + i < c.dataPoints.length),
          ∃ v, v.feq c.dataPoints[s + i] = true ∧
            (splineSamples (E.spline keys) c.min c.max 5 (List.range' s m) prev)[i] = roundAndLimit v c.min c.max 5 := by
      intro m
      induction m with
      | zero => intro s prev _ i h1; simp [splineSamples] at h1
      | succ m ih =>
        intro s prev hsm i h1 h2
        rw [List.range'_succ] at h1
        simp only [List.range'_succ, splineSamples] at h1 ⊢
        cases i with
        | zero =>
          obtain ⟨v, g1, g2⟩ := hsamp s (by omega)
          exact ⟨v, g2, by simp [g1]⟩
        | succ i =>
          obtain ⟨v, g1, g2⟩ := ih (s + 1) _ (by omega) i (by simpa using h1) (by omega)
          refine ⟨v, ?_, by rw [List.getElem_cons_succ]; exact g2⟩
          have : s + 1 + i = s + (i + 1) := by omega
          simpa only [this] using g1
    refine ⟨_, rfl, ?_, ?_⟩
    · rw [(splineSamples_spec _ _ _ _ _ _).1, List.length_range]
    · intro i h1 h2
      have := key n 0 c.min (by omega) i (by rw [← List.range_eq_range']; exact h1) (by omega)
      simpa [List.range_eq_range'] using this
  | idw =>
    simp only [Poly.idwToData, hg, ok_bind]
    refine ⟨_, rfl, by simp, ?_⟩
    intro i h1 h2
    have hpl : ((List.range n).map fun p : Nat => F64.lit (p : Int)).length = n := by simp
    have := hE.idw (List.range n) c.dataPoints (by simp [hdl]) List.pairwise_lt_range (by
      intro p hp
      have := List.mem_range.1 hp
      omega) hv i (by simp; omega) h2
    simp only [List.getElem_map, List.getElem_range] at this ⊢
    exact ⟨_, this, rfl⟩

/-- What a frame storing every sample decompresses to, in terms of the samples. -/
theorem poly_all_out (E : Ext) (hE : E.Interpolates) (ty : PolyType) {data : List F64} (hlen : data.length ≤ 2 ^ 53)
    (hfin : AllFinite data) (hr : ∀ x ∈ data, InRange x) {st : DataStats} (hst : DataStats.new data = .ok st)
    (hc : st.max.feq st.min = false) {k : Nat} (k1 : 1 ≤ k) (k2 : k ≤ 133)
    (hall : ((Poly.start st ty).stored data k).dataPoints.length = data.length) :
    ∃ out, ty.comp.decompress E data.length ((Poly.start st ty).stored data k).enc = .ok out ∧ out.length = data.length ∧
      ∀ i (h1 : i < out.length) (h2 : i < data.length), ∃ v, v.feq data[i] = true ∧ out[i] = roundAndLimit v st.min st.max 5 := by
  have hne : data ≠ [] := by rintro rfl; cases hst
  have hn1 : 1 ≤ data.length := List.length_pos_of_ne_nil hne
  have hpos : positions data.length k = List.range data.length := positions_all hn1 k1 (by rw [← stored_len (Poly.start st ty)]; exact hall)
  rw [comp_decompress, polyToData_enc E _ _ (by rw [hall]; exact lt_of_le_of_lt hlen (by norm_num))]
  set c := ((Poly.start st ty).stored data k).seen with hcdef
  have hps : c.pointStep = k := by show k % 256 % 256 = k; omega
  have hdp : c.dataPoints = data.map (castBD st.bitdepth) := by
    show ((positions data.length k).map fun i => data.getD i FP.zero).map (castBD st.bitdepth) = _
    rw [hpos]
    congr 1
    apply List.ext_getElem (by simp)
    intro i h1 h2
    simp only [List.getElem_map, List.getElem_range]
    rw [List.getD_eq_getElem _ _ h2]
  have htd : c.toData E data.length = c.interpolate E data.length := by
    unfold Poly.toData; rw [if_neg]
    show ¬ st.max.feq st.min = true
    rw [hc]; decide
  rw [htd]
  obtain ⟨out, o1, o2, o3⟩ := interp_all E hE c data.length hn1 hlen (by rw [hps]; omega) (by rw [hps]; exact hpos)
    (by rw [hdp]; simp) (by
      intro v hv
      rw [hdp] at hv
      obtain ⟨x, hx, rfl⟩ := List.mem_map.1 hv
      have h := castBD_val hfin hr hst hx
      refine ⟨h.2, ?_⟩
      rw [h.1]
      rcases hr x hx with h0 | ⟨_, h1⟩
      · rw [h0, abs_zero]; exact le_of_lt (by positivity)
      · exact le_trans h1.le (by rw [show (2:ℚ) ^ (63 : ℤ) = 2 ^ 63 from by norm_cast]; exact big_le (by norm_num)))
  refine ⟨out, o1, o2, fun i h1 h2 => ?_⟩
  obtain ⟨v, v1, v2⟩ := o3 i h1 (by rw [hdp]; simpa using h2)
  refine ⟨v, ?_, v2⟩
  simp only [hdp, List.getElem_map] at v1
  have h := castBD_val hfin hr hst (List.getElem_mem h2)
  refine feq_trans v1 (feq_iff.2 ⟨isFinite_not_nan h.2, isFinite_not_nan (hfin _ (List.getElem_mem _)), ?_⟩)
  exact (val_eq_iff (by decide)).1 h.1

/-- The samples of `out` are those of `data`, up to rounding to five decimals (`0.5e-5`, plus a relative float error of `2^-51`). -/
def SameTo5Decimals (data out : List F64) : Prop :=
  out.length = data.length ∧ ∀ i (h1 : i < out.length) (h2 : i < data.length),
    |(out[i]).val - (data[i]).val| ≤ 1 / 200000 + (|(data[i]).val| + 1) / 2 ^ 51

/-- `x` is the float nearest to a decimal with at most five digits after the point. -/
def FiveDecimals (x : F64) : Prop := ∃ k : ℤ, |k| ≤ 2 ^ 50 ∧ x = (F64.lit k).div (F64.lit (10 ^ 5))

theorem zero_round5 (v : F64) (h : v.val = 0) : (roundF64 v 5).val = 0 ∧ (roundF64 v 5).isFinite = true := by
  have h0 : v.mag.val = 0 := by
    have hs := (val_eq_int (by decide) (x := v) (n := 0)).1 (by rw [h]; rfl)
    rw [zero_mul, ← Int.natAbs_eq_zero, scaled_natAbs] at hs
    exact magVal_eq_zero.1 hs
  have hv : v = FP.zero ∨ v = FP.neg FP.zero := by
    rw [ext_iff', ext_iff', h0]
    cases v.sign
    · left; exact ⟨rfl, rfl⟩
    · right; exact ⟨rfl, rfl⟩
  rcases hv with rfl | rfl
  · have h1 : (roundF64 (FP.zero : F64) 5) = FP.zero := by decide +kernel
    rw [h1]; exact ⟨by unfold FP.val; norm_num [FP.zero, ofPat], by decide⟩
  · have h1 : (roundF64 (FP.neg FP.zero : F64) 5) = FP.neg FP.zero := by decide +kernel
    rw [h1]; exact ⟨by unfold FP.val; norm_num [FP.zero, FP.neg, ofPat], by decide⟩

/-- Both claims of C19 for a frame holding every sample. -/
theorem poly_all_accuracy (E : Ext) (hE : E.Interpolates) (ty : PolyType) {data : List F64} (hlen : data.length ≤ 2 ^ 53)
    (hfin : AllFinite data) (hr : ∀ x ∈ data, InRange x) {st : DataStats} (hst : DataStats.new data = .ok st)
    (hc : st.max.feq st.min = false) {k : Nat} (k1 : 1 ≤ k) (k2 : k ≤ 133)
    (hall : ((Poly.start st ty).stored data k).dataPoints.length = data.length) :
    ∃ out, ty.comp.decompress E data.length ((Poly.start st ty).stored data k).enc = .ok out ∧ SameTo5Decimals data out ∧
      ∀ i (h1 : i < out.length) (h2 : i < data.length), FiveDecimals data[i] → (out[i]).val = (data[i]).val := by
  obtain ⟨out, o1, o2, o3⟩ := poly_all_out E hE ty hlen hfin hr hst hc k1 k2 hall
  have hne : data ≠ [] := by rintro rfl; cases hst
  have hn : ∀ y ∈ data, y.isNaN = false := fun y hy => isFinite_not_nan (hfin y hy)
  obtain ⟨st', a, g1, hinv, e1, e2, -⟩ := stats_spec hne hn
  rw [hst] at g1; injection g1 with g1; subst g1
  have hmaxm : st.max ∈ data := e1 ▸ List.mem_of_getElem? hinv.max_at
  have hminm : st.min ∈ data := e2 ▸ List.mem_of_getElem? hinv.min_at
  have bounds : ∀ v x, x ∈ data → v.feq x = true → v.isFinite = true ∧ v.val = x.val ∧ st.min.le v = true ∧ v.le st.max = true := by
    intro v x hx hvx
    have h3 := feq_iff.1 hvx
    have hval : v.val = x.val := (val_eq_iff (by decide)).2 h3.2.2
    have hvf : v.isFinite = true := by
      have hxf := hfin x hx
      rcases (feq_iff_eq_or_zero h3.1 h3.2.1).1 hvx with h | ⟨h, _⟩
      · rw [h]; exact hxf
      · have : v.mag.val = 0 := magVal_eq_zero.1 h
        unfold FP.isFinite; rw [this]; decide
    refine ⟨hvf, hval, le_iff.2 ⟨hn _ hminm, h3.1, ?_⟩, le_iff.2 ⟨h3.1, hn _ hmaxm, ?_⟩⟩
    · rw [h3.2.2, e2]; exact hinv.min_le x hx
    · rw [h3.2.2, e1]; exact hinv.max_le x hx
  refine ⟨out, o1, ⟨o2, fun i h1 h2 => ?_⟩, fun i h1 h2 hdec => ?_⟩
  · obtain ⟨v, v1, v2⟩ := o3 i h1 h2
    have hx := List.getElem_mem h2
    obtain ⟨b1, b2, b3, b4⟩ := bounds v _ hx v1
    rw [v2, ← b2]
    have := C32_accuracy v st.min st.max 5 (by norm_num) b1 (by
      rw [b2]
      rcases hr _ hx with h0 | ⟨_, h1⟩
      · rw [h0, abs_zero]; exact le_of_lt (by positivity)
      · exact le_trans h1.le (by rw [show (2:ℚ) ^ (63 : ℤ) = 2 ^ 63 from by norm_cast]; exact big_le (by norm_num))) b3 b4
    rw [show (1 : ℚ) / (2 * 10 ^ 5) = 1 / 200000 by norm_num] at this
    exact this
  · obtain ⟨v, v1, v2⟩ := o3 i h1 h2
    have hx := List.getElem_mem h2
    obtain ⟨b1, b2, b3, b4⟩ := bounds v _ hx v1
    obtain ⟨k, hk, hxk⟩ := hdec
    rw [v2]
    rcases (feq_iff_eq_or_zero (isFinite_not_nan b1) (hn _ hx)).1 v1 with h | ⟨h, _⟩
    · have hb3 := b3; have hb4 := b4
      rw [h, hxk] at hb3 hb4
      rw [h, hxk]
      exact C32_decimals_unchanged k 5 (by norm_num) hk st.min st.max hb3 hb4
    · have hv0 : v.val = 0 := by
        rw [val_eq (by decide), show v.scaled = 0 by rw [← Int.natAbs_eq_zero, scaled_natAbs]; exact h]; simp
      obtain ⟨z1, z2⟩ := zero_round5 v hv0
      rw [← b2, hv0, roundAndLimit_eq]
      have hz : ∀ w : F64, w.val = 0 → w.scaled = 0 := by
        intro w hw
        have := (val_eq_int (by decide) (x := w) (n := 0)).1 (by rw [hw]; rfl)
        simpa using this
      have s1 := hz _ z1
      have s2 := hz _ hv0
      have s3 := (le_iff.1 b3).2.2
      have s4 := (le_iff.1 b4).2.2
      split_ifs with q1 q2
      · have := (lt_iff.1 q1).2.2; omega
      · have := (lt_iff.1 q2).2.2; omega
      · exact z1

/-- C19, both entry points: if the frame stores every sample and the interpolation library returns the
knot values at the knots, decompression returns every sample to five decimals, and exactly those samples that have at most
five decimals.  Exactly which samples come back: `C19_exact`; see `C19_refuted_decimals`. -/
theorem C19_stored_all (E : Ext) (hE : E.Interpolates) (ty : PolyType) (data : List F64) (hlen : data.length ≤ 2 ^ 53)
    (hfin : AllFinite data) (hr : ∀ x ∈ data, InRange x)
    (x y : F64) (hx : x ∈ data) (hy : y ∈ data) (hxy : x.lt y = true) (e : F64) (bs : Bytes)
    (h : ty.comp.compress E data = .ok bs ∨ ty.comp.compressBounded E data e = .ok bs) (hall : StoresAll data bs) :
    ∃ out, ty.comp.decompress E data.length bs = .ok out ∧ SameTo5Decimals data out ∧
      ∀ i (h1 : i < out.length) (h2 : i < data.length), FiveDecimals data[i] → (out[i]).val = (data[i]).val := by
  have hne : data ≠ [] := by rintro rfl; simp at hx
  have hn1 : 1 ≤ data.length := List.length_pos_of_ne_nil hne
  have hn : ∀ y ∈ data, y.isNaN = false := fun y hy => isFinite_not_nan (hfin y hy)
  obtain ⟨st, hst⟩ := stats_ok hne
  have hc := stats_nonconst hn hst hx hy hxy
  have key : ∃ k, 1 ≤ k ∧ k ≤ 133 ∧ bs = ((Poly.start st ty).stored data k).enc ∨ bs = (Poly.start st ty).enc := by
    rcases h with h | h
    · rw [comp_compress E ty data hne] at h
      obtain ⟨c, h1, ⟨h2, _⟩ | ⟨_, k, h3, h4, rfl⟩⟩ := poly_plain_cases data hne ty st hst
      · rw [hc] at h2; exact absurd h2 (by decide)
      · rw [h1] at h; injection h with h
        exact ⟨k, Or.inl ⟨h3, h4, h.symm⟩⟩
    · rw [(comp_bounded E ty data hne e).2] at h
      obtain ⟨c, r, h1, h2, h3⟩ := poly_bounded_cases E data hne ty e st hst
      rw [h1] at h
      injection h with h
      rw [← h, h2]
      rcases h3 with ⟨q, _⟩ | ⟨_, q, rfl⟩ | ⟨_, _, s, hs, rfl, _⟩
      · rw [hc] at q; exact absurd q (by decide)
      · exact ⟨0, Or.inr rfl⟩
      · obtain ⟨k, k1, k2, k3⟩ := polyDone_stored hs
        exact ⟨k, Or.inl ⟨k1, k2, by rw [k3]⟩⟩
  obtain ⟨k, ⟨k1, k2, rfl⟩ | rfl⟩ := key
  · apply poly_all_accuracy E hE ty hlen hfin hr hst hc k1 k2
    obtain ⟨c, h1, h2⟩ := hall
    rw [poly_unwrap _ (lt_of_le_of_lt (stored_length_le hn1 k1 _) (lt_of_le_of_lt hlen (by norm_num)))] at h1
    injection h1 with h1
    rw [← h1] at h2
    rw [← h2]
    simp [Poly.seen]
  · exfalso
    obtain ⟨c, h1, h2⟩ := hall
    rw [poly_unwrap (Poly.start st ty) (Nat.two_pow_pos 64)] at h1
    injection h1 with h1
    rw [← h1] at h2
    have : (0 : Nat) = data.length := h2
    omega

/-- C19: chunks of fewer than six samples are always stored completely, by both entry points. -/
theorem C19_small_chunks_stored (E : Ext) (ty : PolyType) (data : List F64) (hlen : data.length < 6)
    (hn : ∀ y ∈ data, y.isNaN = false) (x y : F64) (hx : x ∈ data) (hy : y ∈ data) (hxy : x.lt y = true)
    (e : F64) (he : e.isFinite = true) (he' : |e.val| ≤ 2 ^ 40) :
    ∃ bs, ty.comp.compress E data = .ok bs ∧ ty.comp.compressBounded E data e = .ok bs ∧ StoresAll data bs := by
  have hne : data ≠ [] := by rintro rfl; simp at hx
  have hn1 : 1 ≤ data.length := List.length_pos_of_ne_nil hne
  obtain ⟨st, hst⟩ := stats_ok hne
  have hc := stats_nonconst hn hst hx hy hxy
  have hb : baselinePoints data.length = 3 := by unfold baselinePoints; rw [if_pos (by omega)]
  have hstep : hintStep data.length 3 = 1 := by
    unfold hintStep
    apply Nat.max_eq_right
    omega
  have hall : ((Poly.start st ty).stored data 1).dataPoints.length = data.length := by
    rw [stored_len, positions_one hn1, List.length_range]
  refine ⟨((Poly.start st ty).stored data 1).enc, ?_, ?_, ?_⟩
  · rw [comp_compress E ty data hne]
    unfold polynomial
    simp only [hst, ok_bind]
    have : (Poly.new st.min st.max ty st.bitdepth).compress data = .ok ((Poly.start st ty).stored data 1) := by
      unfold Poly.compress
      rw [hb, hinted_ok _ data 3 hc (by omega) hn1, hstep]; rfl
    rw [this]; rfl
  · rw [(comp_bounded E ty data hne e).2]
    unfold polynomialAllowedError
    simp only [hst, ok_bind]
    have hcb : (Poly.new st.min st.max ty st.bitdepth).compressBounded E data e =
        .ok { (Poly.start st ty).stored data 1 with error := some FP.zero } := by
      unfold Poly.compressBounded
      rw [if_neg (by show ¬ st.max.feq st.min = true; rw [hc]; decide)]
      unfold Poly.loop
      rw [if_pos (by exact search_entered he he')]
      have : Poly.step E data (roundF64 e 3) ((Poly.start st ty).loopInit e) =
          .ok (.brk { c := (Poly.start st ty).stored data 1, err := FP.zero, jump := Nat.max (data.length / 10) 1, iterations := 1 }) := by
        unfold Poly.step
        have h1 : (Poly.start st ty).compressHinted data (baselinePoints data.length + 0) = .ok ((Poly.start st ty).stored data 1) := by
          rw [hb, hinted_ok _ data 3 hc (by omega) hn1, hstep]
        obtain ⟨out, ho, hol, _⟩ := interpolate_ok E ((Poly.start st ty).stored data 1) data.length hn1 (by show 1 % 256 ≠ 0; decide)
        obtain ⟨er, her⟩ := calculateError_ok (a := data) (b := out) hol.symm
        show ((Poly.start st ty).compressHinted data (baselinePoints data.length + 0) >>= _) = _
        rw [h1]
        simp only [ok_bind, ho, her]
        rw [if_pos (by show 0 + 1 ≤ 22; omega), if_pos hall, if_pos (by show 0 + 1 ≤ 17; omega)]
        congr 3
        show 0 + _ = _
        rw [Nat.zero_add]
      show (Poly.step E data (roundF64 e 3) ((Poly.start st ty).loopInit e) >>= _) >>= _ = _
      rw [this]; rfl
    rw [hcb]; rfl
  · exact ⟨_, poly_unwrap _ (by rw [hall]; omega), by simp only [Poly.seen, List.length_map]; exact hall⟩

/-- The float nearest to 1.000001. -/
def millionth : F64 := (F64.lit 1000001).div (F64.lit 1000000)
/-- 1, 1.000001, 2: a chunk that is always stored completely. -/
def sixDecimals : List F64 := [F64.lit 1, millionth, F64.lit 2]

/-- C19 is false for samples with more than five decimals: whatever (interpolating) library is used, 1.000001 comes back as 1,
although the frame stores it exactly and the search reports error 0. -/
theorem C19_refuted_decimals (E : Ext) (hE : E.Interpolates) :
    ∃ r out, Compressor.polynomial.boundedResults E sixDecimals (F64.lit 0) = .ok r ∧ StoresAll sixDecimals r.data ∧
      Compressor.polynomial.decompress E 3 r.data = .ok out ∧ out[1]? = some (F64.lit 1) ∧
      (F64.lit 1).feq millionth = false := by
  have hfin : AllFinite sixDecimals := by unfold AllFinite; decide +kernel
  have hn : ∀ y ∈ sixDecimals, y.isNaN = false := fun y hy => isFinite_not_nan (hfin y hy)
  have hmem1 : F64.lit 1 ∈ sixDecimals := by decide +kernel
  have hmem2 : F64.lit 2 ∈ sixDecimals := by decide +kernel
  have hlt : (F64.lit 1).lt (F64.lit 2) = true := by decide +kernel
  have hne : sixDecimals ≠ [] := by decide
  obtain ⟨st, hst⟩ := stats_ok hne
  have hc := stats_nonconst hn hst hmem1 hmem2 hlt
  have l0 := lit_val (n := 0) (by decide)
  obtain ⟨bs, h1, h2, h3⟩ := C19_small_chunks_stored E .polynomial sixDecimals (by decide) hn _ _ hmem1 hmem2 hlt (F64.lit 0)
    l0.1 (by rw [l0.2]; norm_num)
  have hr : ∀ x ∈ sixDecimals, InRange x := by
    intro x hx
    have h1 : InRange (F64.lit 1) := inRange_of_int (lit_val (by decide)).2 (by decide)
    have h2 : InRange millionth := by rw [inRange_iff]; unfold SplitSafe; decide +kernel
    have h3 : InRange (F64.lit 2) := inRange_of_int (lit_val (by decide)).2 (by decide)
    unfold sixDecimals at hx
    rw [List.mem_cons, List.mem_cons, List.mem_cons] at hx
    rcases hx with h | h | h | h
    · rw [h]; exact h1
    · rw [h]; exact h2
    · rw [h]; exact h3
    · cases h
  rw [comp_compress E .polynomial _ hne] at h1
  obtain ⟨c, g1, ⟨g2, _⟩ | ⟨_, k, g3, g4, rfl⟩⟩ := poly_plain_cases sixDecimals hne .polynomial st hst
  · rw [hc] at g2; exact absurd g2 (by decide)
  rw [g1] at h1; injection h1 with h1
  have hall : ((Poly.start st .polynomial).stored sixDecimals k).dataPoints.length = sixDecimals.length := by
    obtain ⟨c, q1, q2⟩ := h3
    rw [← h1, poly_unwrap _ (lt_of_le_of_lt (stored_length_le (by decide) g3 _) (by decide))] at q1
    have q1 := Except.ok.inj q1
    rw [← q1] at q2
    rw [← q2]
    simp only [Poly.seen, List.length_map]
  obtain ⟨out, o1, o2, o3⟩ := poly_all_out E hE .polynomial (data := sixDecimals) (by decide) hfin hr hst hc g3 g4 hall
  rw [h1] at o1
  rw [(comp_bounded E .polynomial _ hne _).2, ← (comp_bounded E .polynomial _ hne _).1] at h2
  obtain ⟨r, r1, r2⟩ := bind_ok_iff.1 h2
  injection r2 with r2
  refine ⟨r, out, r1, by rw [r2]; exact h3, by rw [r2]; exact o1, ?_, by decide +kernel⟩
  have hl : 1 < out.length := by rw [o2]; decide
  obtain ⟨v, v1, v2⟩ := o3 1 hl (by decide)
  rw [List.getElem?_eq_getElem hl, v2]
  have hv : v = millionth := by
    rcases (feq_iff_eq_or_zero (feq_iff.1 v1).1 (feq_iff.1 v1).2.1).1 v1 with h | ⟨_, h⟩
    · rw [h]; simp only [sixDecimals, List.getElem_cons_succ, List.getElem_cons_zero]
    · exact absurd h (by decide +kernel)
  have hmm : st.min = F64.lit 1 ∧ st.max = F64.lit 2 := by
    have h : okAnd (DataStats.new sixDecimals) (fun st => decide (st.min = F64.lit 1 ∧ st.max = F64.lit 2)) = true := by decide +kernel
    obtain ⟨st', s1, s2⟩ := okAnd_iff.1 h
    rw [hst] at s1; rw [Except.ok.inj s1]
    exact of_decide_eq_true s2
  rw [hv, hmm.1, hmm.2]
  decide +kernel

end Atsc
