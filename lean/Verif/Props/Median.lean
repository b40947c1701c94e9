import Verif.Props.Interp
import Verif.Props.Options
/- C98: `-e 50` is documented (atsc main.rs:185, README) to "do a median filter on the data".  It does not. -/
namespace Atsc

/-- `m` is a median of `l`: at least half of `l` is at most `m` and at least half is at least `m`. -/
def IsMedian (l : List F64) (m : F64) : Prop :=
  l.length ≤ 2 * (l.filter fun x => x.le m).length ∧ l.length ≤ 2 * (l.filter fun x => m.le x).length

/-- The samples at most `r` places from `i`. -/
def window (data : List F64) (i r : Nat) : List F64 := (data.drop (i - r)).take (min i r + r + 1)

/-- `out` is `data` after a median filter of radius `r`. -/
def MedianFiltered (r : Nat) (data out : List F64) : Prop :=
  out.length = data.length ∧ ∀ i m, out[i]? = some m → IsMedian (window data i r) m

/-- A single spike. -/
def spike : List F64 := [F64.lit 1, F64.lit 100, F64.lit 1]

/-- The definition is not too narrow: a median filter flattens the spike. -/
example : MedianFiltered 1 spike (List.replicate 3 (F64.lit 1)) := by
  refine ⟨List.length_replicate, ?_⟩
  intro i m h
  have hm : m = F64.lit 1 := List.eq_of_mem_replicate (List.mem_of_getElem? h)
  have hi : i < 3 := by
    have := (List.getElem?_eq_some_iff.1 h).1
    rwa [List.length_replicate] at this
  rw [hm]
  clear h hm
  have key : ∀ j : Fin 3, IsMedian (window spike j.val 1) (F64.lit 1) := by unfold IsMedian; decide +kernel
  exact key ⟨i, hi⟩

set_option maxHeartbeats 4000000 in
theorem spike_run : okAnd (do
    let bs ← compressData Ext.dummy.withInterp .release spike { compressor := .auto, error := 50, level := 0 }
    decompressData Ext.dummy.withInterp bs) (fun o => decide (o = spike)) = true := by decide +kernel

theorem window_spike {r : Nat} (hr : 1 ≤ r) : window spike 1 r = spike := by
  unfold window
  have h1 : 1 - r = 0 := by omega
  rw [h1, List.drop_zero]
  apply List.take_of_length_le
  show 3 ≤ _
  omega

/-- **Refuted**: with `-e 50` and the default settings the spike comes back, for no radius a median filter of the data. -/
theorem C98_refuted_median : ∃ (E : Ext) (data out : List F64) (bs : Bytes),
    compressData E .release data { compressor := .auto, error := 50, level := 0 } = .ok bs ∧ decompressData E bs = .ok out ∧
    ∀ r, 1 ≤ r → ¬ MedianFiltered r data out := by
  obtain ⟨o, h1, h2⟩ := okAnd_iff.1 spike_run
  have h2 := of_decide_eq_true h2
  obtain ⟨bs, h3, h4⟩ := bind_ok_iff.1 h1
  refine ⟨_, spike, o, bs, h3, h4, ?_⟩
  rintro r hr ⟨-, h⟩
  have := (h 1 (F64.lit 100) (by rw [h2]; rfl)).2
  rw [window_spike hr] at this
  revert this
  decide +kernel

end Atsc
