import Verif.Props.StatsMore
/- C10, C12, C15: the exact boundary of losslessness.  The earlier theorems say what happens inside a range of magnitudes; here
it is shown that this range is the largest possible. -/
namespace Atsc
open FP

/-- Casting to an integer type and back always yields an integer of magnitude at most `2^31`. -/
theorem castBD_integer {bd : Bitdepth} (hbd : bd ≠ .f64) (x : F64) : ∃ n : ℤ, n.natAbs ≤ 2 ^ 31 ∧ (castBD bd x).val = n := by
  have key : ∀ lo hi : Int, lo ≤ 0 → 0 ≤ hi → -2 ^ 31 ≤ lo → hi ≤ 2 ^ 31 →
      ∃ n : ℤ, n.natAbs ≤ 2 ^ 31 ∧ (F64.lit (x.toInt lo hi)).val = n := by
    intro lo hi h1 h2 h3 h4
    have := toInt_bounds x (by omega : lo ≤ hi) h1 h2
    have hb : (x.toInt lo hi).natAbs ≤ 2 ^ 31 := by omega
    exact ⟨_, hb, (lit_val (by omega)).2⟩
  cases bd with
  | f64 => exact absurd rfl hbd
  | i32 => exact key _ _ (by decide) (by decide) (by decide) (by decide)
  | i16 => exact key _ _ (by decide) (by decide) (by decide) (by decide)
  | u8 => exact key _ _ (by decide) (by decide) (by decide) (by decide)

/-- A sample outside the range never survives a cast to one of the integer types. -/
theorem castBD_lost {bd : Bitdepth} (hbd : bd ≠ .f64) {x : F64} (hx : ¬ InRange x) : (castBD bd x).val ≠ x.val := by
  intro h
  obtain ⟨n, hn, hv⟩ := castBD_integer hbd x
  exact hx (inRange_of_int (h.symm.trans hv) (by omega))

/-- C15, exactly: the recommended type represents every sample of a finite chunk if and only if it is f64 or every sample is zero
or of magnitude in `[2^-64, 2^63)`. -/
theorem C15_exact (data : List F64) (hfin : AllFinite data) (st : DataStats) (hst : DataStats.new data = .ok st) :
    (∀ x ∈ data, (castBD st.bitdepth x).val = x.val) ↔ st.bitdepth = .f64 ∨ ∀ x ∈ data, InRange x := by
  constructor
  · intro h
    by_cases hbd : st.bitdepth = .f64
    · exact .inl hbd
    · exact .inr fun x hx => by_contra fun hr => castBD_lost hbd hr (h x hx)
  · rintro (hbd | hr) x hx
    · rw [hbd]; rfl
    · exact (castBD_val hfin hr hst hx).1

/-- C10, exactly: RLE gives back the values of a finite chunk if and only if the chunk is stored as f64 or every sample is zero or
of magnitude in `[2^-64, 2^63)`.  (`st` is what the statistics of the chunk report.) -/
theorem C10_exact (E : Ext) (data : List F64) (hne : data ≠ []) (hlen : data.length < 2 ^ 64) (hfin : AllFinite data) :
    ∃ st bs out, DataStats.new data = .ok st ∧ Compressor.rle.compress E data = .ok bs ∧
      Compressor.rle.decompress E data.length bs = .ok out ∧
      (SameValues out data ↔ st.bitdepth = .f64 ∨ ∀ x ∈ data, InRange x) := by
  obtain ⟨st, bs, out, hst, h1, h2, h3, h4⟩ := C11_rle_runs E data hne hlen
  refine ⟨st, bs, out, hst, h1, h2, ?_⟩
  have hn : ∀ x ∈ data, x.isNaN = false := fun x hx => isFinite_not_nan (hfin x hx)
  have hv : ∀ i (ha : i < out.length) (hb : i < data.length), ∃ y ∈ data, y.val = (data[i]).val ∧ out[i] = castBD st.bitdepth y := by
    intro i ha hb
    obtain ⟨j, hij, hj, h5, _, h6⟩ := h4 i hb
    rw [List.getElem?_eq_getElem ha] at h6
    injection h6 with h6
    exact ⟨_, List.getElem_mem hj, (val_eq_iff (by decide)).2 (feq_iff.1 (feq_chain hij hj hn h5)).2.2, h6⟩
  constructor
  · rintro ⟨_, hs⟩
    by_cases hbd : st.bitdepth = .f64
    · exact .inl hbd
    · refine .inr fun x hx => ?_
      obtain ⟨i, hi, rfl⟩ := List.getElem_of_mem hx
      obtain ⟨y, _, hy, ho⟩ := hv i (by omega) hi
      have := (hs i (by omega) hi).1
      rw [ho, ← hy] at this
      have hr : InRange y := by_contra fun hr => castBD_lost hbd hr this
      unfold InRange at hr ⊢
      rwa [← hy]
  · intro h
    refine ⟨h3, fun i ha hb => ?_⟩
    obtain ⟨y, hy, hyv, ho⟩ := hv i ha hb
    rw [ho, ← hyv]
    rcases h with hbd | hr
    · rw [hbd]; exact ⟨rfl, hfin y hy, hfin _ (List.getElem_mem hb)⟩
    · have := castBD_val hfin hr hst hy
      exact ⟨this.1, this.2, hfin _ (List.getElem_mem hb)⟩

/-- C12, exactly: `Constant` gives back a chunk of finite equal samples if and only if the chunk is stored as f64 or that value is
zero or of magnitude in `[2^-64, 2^63)`. -/
theorem C12_exact (E : Ext) (data : List F64) (hne : data ≠ []) (hfin : AllFinite data)
    (hc : ∀ x ∈ data, ∀ y ∈ data, x.val = y.val) :
    ∃ st bs out, DataStats.new data = .ok st ∧ Compressor.constant.compress E data = .ok bs ∧
      Compressor.constant.decompress E data.length bs = .ok out ∧
      (SameValues out data ↔ st.bitdepth = .f64 ∨ ∀ x ∈ data, InRange x) := by
  obtain ⟨st, hst⟩ := stats_ok hne
  obtain ⟨st', a, g1, hinv, -, gmin, -⟩ := stats_spec hne fun y hy => isFinite_not_nan (hfin y hy)
  rw [hst] at g1; injection g1 with g1; subst g1
  have hmem : st.min ∈ data := by rw [gmin]; exact List.mem_of_getElem? hinv.min_at
  refine ⟨st, (Constant.new st.min st.bitdepth).enc, List.replicate data.length (castBD st.bitdepth st.min), hst, ?_,
    constantToData_enc _ _ _, ?_⟩
  · simp only [Compressor.compress, hst, ok_bind, constantCompressor]
  constructor
  · rintro ⟨_, hs⟩
    by_cases hbd : st.bitdepth = .f64
    · exact .inl hbd
    · refine .inr fun x hx => ?_
      obtain ⟨i, hi, rfl⟩ := List.getElem_of_mem hx
      have := (hs i (by simpa using hi) hi).1
      rw [List.getElem_replicate, hc _ (List.getElem_mem hi) _ hmem] at this
      have hr : InRange st.min := by_contra fun hr => castBD_lost hbd hr this
      unfold InRange at hr ⊢
      rwa [hc _ (List.getElem_mem hi) _ hmem]
  · intro h
    refine ⟨by simp, fun i ha hb => ?_⟩
    rw [List.getElem_replicate, hc _ (List.getElem_mem hb) _ hmem]
    rcases h with hbd | hr
    · rw [hbd]; exact ⟨rfl, hfin _ hmem, hfin _ (List.getElem_mem hb)⟩
    · have := castBD_val hfin hr hst hmem
      exact ⟨this.1, this.2, hfin _ (List.getElem_mem hb)⟩

/-- Both sides of the boundary occur: 1, 1, -300, 1 is stored as i16 and in range; `0, 2^63` is stored as u8 and is not. -/
example : (∃ st, DataStats.new demoData = .ok st ∧ st.bitdepth = .i16) ∧ (∀ x ∈ demoData, InRange x) ∧
    AllFinite [F64.lit 0, F64.lit (2 ^ 63)] ∧ ∃ st, DataStats.new [F64.lit 0, F64.lit (2 ^ 63)] = .ok st ∧ st.bitdepth ≠ .f64 :=
  ⟨⟨_, rfl, by decide +kernel⟩, demoData_safe.2, by unfold AllFinite; decide +kernel, _, rfl, by decide +kernel⟩

end Atsc
