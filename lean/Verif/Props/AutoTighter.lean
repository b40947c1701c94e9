import Verif.Props.Tighter
import Verif.Props.Auto
/- C79 for `auto`. -/
namespace Atsc
open FP

/-- **C79**, Auto: when every candidate's result for the larger bound is within it, and samples are stored in a fixed width, the payload for
the larger bound is not larger than for the smaller one.  (Otherwise a candidate whose search stopped just above the larger bound is not eligible, and then
the payload can be much larger (`C79_refuted_auto`). -/
theorem C79_auto (E : Ext) (hE : E.Lawful) (p p' : Profile) (s s' : Stream) (data : List F64) (hfin : AllFinite data)
    (x y : F64) (hx : x ∈ data) (hy : y ∈ data) (hxy : x.val ≠ y.val) (st : DataStats) (hst : DataStats.new data = .ok st)
    (hbd : st.bitdepth = .u8 ∨ st.bitdepth = .f64) (e e' : F32) (he : (FP.zero : F32).le e = true) (he' : (FP.zero : F32).le e' = true)
    (h : Looser (FP.cvt e) (FP.cvt e'))
    (speed : Nat) (hsp : speed ≤ 6) (hl : data.length < sampleSize speed)
    (hok : ∀ c bs err, Produces E c data (FP.cvt e') bs err → err.le (FP.cvt e') = true) (g g' : Frame)
    (hg : (ChunkOp.bounded data .auto e speed).Adds E p s g) (hg' : (ChunkOp.bounded data .auto e' speed).Adds E p' s' g') :
    g'.data.length ≤ g.data.length := by
  have hne : data ≠ [] := by rintro rfl; simp at hx
  obtain ⟨⟨err, ⟨hr, r, r1, r2, -⟩, -⟩, -⟩ := C26_smallest E hE p s data hfin x y hx hy hxy e he speed hsp hl g hg
  have hs := (C26_smallest E hE p' s' data hfin x y hx hy hxy e' he' speed hsp hl g' hg').2
  -- the same candidate with the larger bound
  have key : ∃ r', g.compressor.boundedResults E data (FP.cvt e') = .ok r' ∧ r'.data.length ≤ r.data.length := by
    cases hc : g.compressor <;> rw [hc] at hr r1 <;> simp only [Compressor.rank, Option.isSome_none, Bool.false_eq_true] at hr
    · obtain ⟨q, q', h1, h2, h3⟩ := C79_fft E hE data hne _ _ h
      rw [r1] at h1; obtain rfl := Except.ok.inj h1
      exact ⟨q', h2, h3⟩
    · obtain ⟨q, q', h1, h2, h3⟩ := C79_poly E .polynomial data hne _ _ h st hst hbd
      have h1 : Compressor.polynomial.boundedResults E data (FP.cvt e) = .ok q := h1
      rw [r1] at h1; obtain rfl := Except.ok.inj h1
      exact ⟨q', h2, h3⟩
    · refine ⟨r, ?_, le_refl _⟩
      rw [← C79_others E .rle (.inr (.inr rfl)) data (FP.cvt e) (FP.cvt e')]
      exact r1
  obtain ⟨r', k1, k2⟩ := key
  have hp : Produces E g.compressor data (FP.cvt e') r'.data r'.error := ⟨hr, r', k1, rfl, rfl⟩
  have := (hs g.compressor r'.data r'.error hp (hok _ _ _ hp)).1
  rw [← r2]
  omega

/-- 1.5, 2.5, …, 20.5. -/
def halves : List F64 := (List.range 20).map fun (i : Nat) => (FP.ofInt (2 * i + 3) : F64).div (F64.lit 2)

/-- A lawful library whose inverse transform is 7.45% off when fewer than four frequencies are kept, and exact on `halves` otherwise; its spline is always
1.5. -/
def Ext.coarse : Ext where
  fftFwd b := b.mapIdx fun i _ => { re := FP.ofInt (100 - (i : Int)), im := FP.zero }
  fftInv b := b.mapIdx fun i _ =>
    { re := if (b.filter fun z => !(z.re.feq FP.zero)).length ≤ 5 then (FP.ofInt ((20 * i + 30) * 9255) : F32).div (FP.ofInt 10000) else FP.ofInt (20 * i + 30),
      im := FP.zero }
  norm z := z.re
  spline _ _ := some ((F64.lit 3).div (F64.lit 2))
  idw _ _ _ := FP.zero

theorem Ext.coarse_lawful : Ext.coarse.Lawful := ⟨fun b => by simp [Ext.coarse], fun b => by simp [Ext.coarse]⟩

/-- The frame `auto` adds for a percentage. -/
def autoPercent (E : Ext) (data : List F64) (pct : Nat) : Except Panic Stream :=
  (ChunkOp.bounded data .auto ((FP.ofInt (pct : Int) : F32).div (FP.ofInt 100)) 0).apply E .debug Stream.new

/-- What `auto` stores for one percentage: the codec and the number of bytes. -/
def autoStores (pct : Nat) (c : Compressor) (n : Nat) : Bool :=
  okAnd (autoPercent Ext.coarse halves pct) fun s => decide (s.frames.map (fun f => (f.compressor, f.data.length)) = [(c, n)])

theorem autoStores_iff {pct : Nat} {c : Compressor} {n : Nat} (h : autoStores pct c n = true) :
    ∃ s, autoPercent Ext.coarse halves pct = .ok s ∧ s.frames.map (fun f => (f.compressor, f.data.length)) = [(c, n)] := by
  unfold autoStores at h
  generalize autoPercent Ext.coarse halves pct = r at h ⊢
  obtain ⟨s, h1, h2⟩ := okAnd_iff.1 h
  exact ⟨s, h1, of_decide_eq_true h2⟩

set_option maxHeartbeats 4000000 in
theorem auto6 : autoStores 6 .fft 46 = true := by decide +kernel
set_option maxHeartbeats 4000000 in
theorem auto7 : autoStores 7 .polynomial 180 = true := by decide +kernel
set_option maxHeartbeats 4000000 in
theorem auto8 : autoStores 8 .fft 37 = true := by decide +kernel

/-- **C79 refuted for `auto`.** With a lawful library, allowing 7% instead of 6% makes the payload of this chunk grow from 46 to 180 bytes (and 8% makes it 37):
for 7% the FFT search accepts an error above 7% that is not above 70 in whole per mille, but the choice does not, and falls back to storing every sample. -/
theorem C79_refuted_auto : Ext.coarse.Lawful ∧ ∃ s6 s7 s8, autoPercent Ext.coarse halves 6 = .ok s6 ∧ autoPercent Ext.coarse halves 7 = .ok s7 ∧
    autoPercent Ext.coarse halves 8 = .ok s8 ∧ s6.frames.map (fun f => (f.compressor, f.data.length)) = [(.fft, 46)] ∧
    s7.frames.map (fun f => (f.compressor, f.data.length)) = [(.polynomial, 180)] ∧ s8.frames.map (fun f => (f.compressor, f.data.length)) = [(.fft, 37)] := by
  obtain ⟨s6, a6, b6⟩ := autoStores_iff auto6
  obtain ⟨s7, a7, b7⟩ := autoStores_iff auto7
  obtain ⟨s8, a8, b8⟩ := autoStores_iff auto8
  exact ⟨Ext.coarse_lawful, s6, s7, s8, a6, a7, a8, b6, b7, b8⟩

/-- Non-vacuity of `C79_auto`: at 8% every candidate's result for this chunk is within the bound, and samples are stored as doubles. -/
example : okAnd (DataStats.new halves) (fun st => decide (st.bitdepth = .f64)) = true := by decide +kernel
example : ([.fft, .polynomial, .rle] : List Compressor).all (fun c =>
    okAnd (c.boundedResults Ext.coarse halves (FP.cvt ((FP.ofInt (8 : Nat) : F32).div (FP.ofInt 100)))) fun r =>
      r.error.le (FP.cvt ((FP.ofInt (8 : Nat) : F32).div (FP.ofInt 100)))) = true := by decide +kernel

end Atsc
