import Verif.Props.Session
import Verif.Props.Cycles
import Verif.Props.Layout
/- C124: what `--compressor constant` gives back. -/
namespace Atsc
open FP

/-- Specification: `y` is a finite number with the value of the smallest of the samples `l`. -/
def SmallestOf (l : List F64) (y : F64) : Prop := y.isFinite = true ∧ ∃ x ∈ l, y.val = x.val ∧ ∀ z ∈ l, x.val ≤ z.val

/-- Specification: `out` is `data` with every sample of each frame (C80) replaced by the smallest of the frame. -/
def Flattened (data out : List F64) : Prop := ∃ outs : List (List F64), out = outs.flatten ∧
  List.Forall₂ (fun l o => o.length = l.length ∧ ∀ y ∈ o, SmallestOf l y) (layout data) outs

/-- One chunk. -/
theorem constant_smallest (E : Ext) (data : List F64) (hne : data ≠ []) (hf : AllFinite data) (hr : ∀ x ∈ data, InRange x) :
    ∃ bs out, Compressor.constant.compress E data = .ok bs ∧ Compressor.constant.decompress E data.length bs = .ok out ∧
      out.length = data.length ∧ ∀ y ∈ out, SmallestOf data y := by
  have hn : ∀ y ∈ data, y.isNaN = false := fun y hy => isFinite_not_nan (hf y hy)
  obtain ⟨st, hst⟩ := stats_ok hne
  obtain ⟨hminm, hmaxm, hrange⟩ := stats_range hne hn hst
  refine ⟨(Constant.new st.min st.bitdepth).enc, List.replicate data.length (castBD st.bitdepth st.min), ?_, ?_, by simp, fun y hy => ?_⟩
  · simp only [Compressor.compress, hst, ok_bind, constantCompressor]
  · rw [constant_decompress_eq, constantToData_enc]
  · obtain rfl := List.eq_of_mem_replicate hy
    obtain ⟨v, w⟩ := castBD_val hf hr hst hminm
    refine ⟨w, st.min, hminm, v, fun z hz => ?_⟩
    exact (val_le_iff (by decide)).2 (le_iff.1 (hrange z hz).1).2.2

theorem constant_alone (E : Ext) (p : Profile) (data : List F64) (hne : data ≠ []) (hf : AllFinite data) (hr : ∀ x ∈ data, InRange x) :
    ∃ out, (ChunkOp.using data .constant).alone E p = .ok out ∧ out.length = data.length ∧ ∀ y ∈ out, SmallestOf data y := by
  obtain ⟨bs, out, h1, h2, h3, h4⟩ := constant_smallest E data hne hf hr
  have hfr : (ChunkOp.using data .constant).frame E = .ok { Frame.new (some .constant) with sampleCount := data.length, data := bs } := by
    show Compressor.constant.compress E data >>= _ = _
    rw [h1, ok_bind]
  refine ⟨out, ?_, h3, h4⟩
  rw [alone_eq hfr]
  exact h2

/-- **C124.** With `--compressor constant`, whatever the error and level: every sample of a frame comes back as the smallest finite sample of the frame. -/
theorem C124_smallest (E : Ext) (hE : E.Lawful) (p : Profile) (data : List F64) (a : CompArgs) (ha : a.Valid) (hc : a.compressor = .constant)
    (hp : FewEnough p data) (hin : ∀ x ∈ data, x.isFinite = true → InRange x) :
    ∃ bs, compressData E p data a = .ok bs ∧
      (bs.length < 2 ^ 64 → ∃ out, decompressData E bs = .ok out ∧ Flattened (finiteSamples data) out) := by
  obtain ⟨bs, h1, h2⟩ := C54_end_to_end E hE p data a ha hp
  refine ⟨bs, h1, fun hl => ?_⟩
  obtain ⟨out, h3, -⟩ := h2 hl
  refine ⟨out, h3, ?_⟩
  obtain ⟨outs, rfl, hp⟩ := decoded_pieces hE ha h1 hl h3
  refine ⟨outs, rfl, ?_⟩
  rw [List.forall₂_iff_get] at hp ⊢
  refine ⟨hp.1, fun i hi hi' => ?_⟩
  obtain ⟨q1, q2⟩ := hp.2 i hi hi'
  have hmem : (layout (finiteSamples data)).get ⟨i, hi⟩ ∈ layout (finiteSamples data) := List.get_mem _ _
  generalize (layout (finiteSamples data)).get ⟨i, hi⟩ = l at q1 q2 hmem ⊢
  have hall : ∀ y ∈ l, y ∈ data ∧ y.isFinite = true := by
    intro y hy
    have : y ∈ (layout (finiteSamples data)).flatten := List.mem_flatten.2 ⟨l, hmem, hy⟩
    rw [(layout_lengths _).2] at this
    exact List.mem_filter.1 this
  obtain ⟨o, o1, o2, o3⟩ := constant_alone E p l (List.ne_nil_of_length_pos (layout_small hmem).1) (fun y hy => (hall y hy).2)
    (fun y hy => hin y (hall y hy).1 (hall y hy).2)
  have q1 : (ChunkOp.using l .constant).alone E p = .ok (outs.get ⟨i, hi'⟩) := by
    rw [← q1, CompArgs.op, hc]; rfl
  rw [o1] at q1
  obtain rfl := Except.ok.inj q1
  exact ⟨q2, o3⟩

theorem sameValues_flatten : ∀ (ls outs : List (List F64)), List.Forall₂ (fun l o => o.length = l.length ∧ ∀ y ∈ o, SmallestOf l y) ls outs →
    (∀ l ∈ ls, AllFinite l) → (SameValues outs.flatten ls.flatten ↔ ∀ l ∈ ls, ∀ x ∈ l, ∀ y ∈ l, x.val = y.val) := by
  intro ls outs h
  induction h with
  | nil => intro _; simp [SameValues]
  | @cons l o ls outs h _ ih =>
    intro hf
    have ih := ih fun l hl => hf l (List.mem_cons_of_mem _ hl)
    have hl := hf l List.mem_cons_self
    rw [List.flatten_cons, List.flatten_cons, List.forall_mem_cons, ← ih]
    have step : SameValues (o ++ outs.flatten) (l ++ ls.flatten) ↔ SameValues o l ∧ SameValues outs.flatten ls.flatten := by
      have e := h.1
      constructor
      · rintro ⟨e', q⟩
        rw [List.length_append, List.length_append] at e'
        refine ⟨⟨e, fun i h1 h2 => ?_⟩, ⟨by omega, fun i h1 h2 => ?_⟩⟩
        · have := q i (by rw [List.length_append]; omega) (by rw [List.length_append]; omega)
          rwa [List.getElem_append_left h1, List.getElem_append_left h2] at this
        · have := q (l.length + i) (by rw [List.length_append]; omega) (by rw [List.length_append]; omega)
          rw [List.getElem_append_right (by omega), List.getElem_append_right (by omega)] at this
          simpa [e] using this
      · rintro ⟨⟨-, q⟩, e', r⟩
        refine ⟨by rw [List.length_append, List.length_append]; omega, fun i h1 h2 => ?_⟩
        rw [List.length_append] at h1 h2
        rcases Nat.lt_or_ge i l.length with hi | hi
        · rw [List.getElem_append_left (by omega), List.getElem_append_left hi]
          exact q i (by omega) hi
        · rw [List.getElem_append_right (by omega), List.getElem_append_right hi]
          simp only [e]
          exact r _ (by omega) (by omega)
    rw [step]
    refine and_congr_left fun _ => ?_
    constructor
    · rintro ⟨-, q⟩
      have key : ∀ x ∈ l, ∀ z ∈ l, x.val ≤ z.val := by
        intro x hx z hz
        obtain ⟨i, hi, rfl⟩ := List.getElem_of_mem hx
        obtain ⟨e, -, -⟩ := q i (by omega) hi
        obtain ⟨-, w, -, e', hmin⟩ := h.2 _ (List.getElem_mem (h := (by omega : i < o.length)))
        rw [← e, e']; exact hmin z hz
      exact fun x hx y hy => le_antisymm (key x hx y hy) (key y hy x hx)
    · intro q
      refine ⟨h.1, fun i h1 h2 => ?_⟩
      obtain ⟨f, w, hw, e, -⟩ := h.2 _ (List.getElem_mem h1)
      exact ⟨by rw [e]; exact q _ hw _ (List.getElem_mem h2), f, hl _ (List.getElem_mem h2)⟩

/-- **C124, when nothing is lost.** The samples come back with their values exactly if within each frame they are all the same. -/
theorem C124_lossless_iff (data out : List F64) (h : Flattened (finiteSamples data) out) :
    SameValues out (finiteSamples data) ↔ ∀ l ∈ layout (finiteSamples data), ∀ x ∈ l, ∀ y ∈ l, x.val = y.val := by
  obtain ⟨outs, rfl, h⟩ := h
  rw [← sameValues_flatten _ _ h, (layout_lengths _).2]
  intro l hl y hy
  have : y ∈ (layout (finiteSamples data)).flatten := List.mem_flatten.2 ⟨l, hl, hy⟩
  rw [(layout_lengths _).2] at this
  exact (List.mem_filter.1 this).2

/-- **C124, commands.** `atsc --compressor constant` and then `atsc -u`: both end with status 0, and the `.wbro` file holds the flattened samples. -/
theorem C124_session (env : Env) (hE : env.E.Lawful) (ha : 8 ∣ env.addr) (stat1 stat2 : List Char → Input) (ts1 ts2 : List Tok) (a1 a2 : AtscArgs)
    (h1 : atscParse ts1 = .ok a1) (h2 : atscParse ts2 = .ok a2) (hu1 : a1.run.uncompress = false) (hu2 : a2.run.uncompress = true)
    (hr : a1.run.comp.compressor = .constant)
    (path : FPath) (hs1 : stat1 a1.input = .file path) (hs2 : stat2 a2.input = .file (path.withExt "bro"))
    (fs : Fs) (c : Bytes) (hc : fs path = some c) (d : List F64) (hg : Gives env a1.run c d) (hd : d.length ≤ 2 ^ 28) (hp : FewEnough env.p d)
    (hx : ∃ x ∈ d, x.isFinite = true) (hin : ∀ x ∈ d, x.isFinite = true → InRange x) :
    ∃ bs, atscMain env stat1 fs ts1 = (fs.write (path.withExt "bro") bs, 0) ∧
      (bs.length < 2 ^ 64 → ∃ out f2,
        atscMain env stat2 (fs.write (path.withExt "bro") bs) ts2 = ((fs.write (path.withExt "bro") bs).write (path.withExt "wbro") f2, 0) ∧
        WavBrro.fromFile env.addr f2 = .ok (.samples out) ∧ Flattened (finiteSamples d) out) := by
  obtain ⟨bs, c1, c2, c3⟩ := C107_session env hE ha stat1 stat2 ts1 ts2 a1 a2 h1 h2 hu1 hu2 path hs1 hs2 fs c hc d hg hd hp hx
  refine ⟨bs, c2, fun hl => ?_⟩
  obtain ⟨out, f2, g1, -, g3, g4⟩ := c3 hl
  obtain ⟨bs', r1, r2⟩ := C124_smallest env.E hE env.p d a1.run.comp (C104_ranges ts1 a1 h1) hr hp hin
  rw [c1] at r1
  obtain rfl := Except.ok.inj r1
  obtain ⟨out', k1, k2⟩ := r2 hl
  rw [g1] at k1
  obtain rfl := Except.ok.inj k1
  exact ⟨out, f2, g3, g4, k2⟩

/-- **C124 [`--compressor constant --error 1` refuses data that are not constant, or bounds the error].** It does neither: 5, 1, 3 come back as 1, 1, 1. -/
theorem C124_refuted : ∃ bs, compressData Ext.dummy .debug [F64.lit 5, F64.lit 1, F64.lit 3] ⟨.constant, 1, 0⟩ = .ok bs ∧
    decompressData Ext.dummy bs = .ok [F64.lit 1, F64.lit 1, F64.lit 1] := by
  have h : okAnd (compressData Ext.dummy .debug [F64.lit 5, F64.lit 1, F64.lit 3] ⟨.constant, 1, 0⟩) (fun bs =>
      okAnd (decompressData Ext.dummy bs) fun out => decide (out = [F64.lit 1, F64.lit 1, F64.lit 1])) = true := by decide +kernel
  obtain ⟨bs, h1, h2⟩ := okAnd_iff.1 h
  obtain ⟨out, h3, h4⟩ := okAnd_iff.1 h2
  exact ⟨bs, h1, by rw [h3, of_decide_eq_true h4]⟩

/-- The hypotheses of `C124_smallest` are met by these samples. -/
example : (⟨.constant, 1, 0⟩ : CompArgs).Valid ∧ FewEnough .debug [F64.lit 5, F64.lit 1, F64.lit 3] ∧
    ∀ x ∈ [F64.lit 5, F64.lit 1, F64.lit 3], x.isFinite = true → InRange x := by
  refine ⟨⟨by decide, by decide⟩, fun _ => by decide, ?_⟩
  have h5 : InRange (F64.lit 5) := inRange_of_int (lit_val (by decide)).2 (by decide)
  have h1 : InRange (F64.lit 1) := inRange_of_int (lit_val (by decide)).2 (by decide)
  have h3 : InRange (F64.lit 3) := inRange_of_int (lit_val (by decide)).2 (by decide)
  intro x hx _
  rcases List.mem_cons.1 hx with rfl | hx
  · exact h5
  rcases List.mem_cons.1 hx with rfl | hx
  · exact h1
  rw [List.mem_singleton.1 hx]
  exact h3

/-- `Flattened` with two frames: 512 threes and then a one make two frames, each with its own smallest sample, so nothing is lost. -/
example : Flattened (List.replicate 512 (F64.lit 3) ++ [F64.lit 1]) (List.replicate 512 (F64.lit 3) ++ [F64.lit 1]) := by
  have h : layout (List.replicate 512 (F64.lit 3) ++ [F64.lit 1]) = [List.replicate 512 (F64.lit 3), [F64.lit 1]] := by decide +kernel
  refine ⟨[List.replicate 512 (F64.lit 3), [F64.lit 1]], by rw [List.flatten_cons, List.flatten_cons, List.flatten_nil, List.append_nil], ?_⟩
  rw [h]
  refine .cons ⟨rfl, fun y hy => ?_⟩ (.cons ⟨rfl, fun y hy => ?_⟩ .nil)
  · obtain rfl := List.eq_of_mem_replicate hy
    refine ⟨by decide +kernel, _, hy, rfl, fun z hz => ?_⟩
    obtain rfl := List.eq_of_mem_replicate hz
    exact le_refl _
  · obtain rfl := List.mem_singleton.1 hy
    refine ⟨by decide +kernel, _, hy, rfl, fun z hz => ?_⟩
    obtain rfl := List.mem_singleton.1 hz
    exact le_refl _

end Atsc
