import Verif.Spec.Interp
import Verif.Lemmas.Float
/- A concrete (lawful, but mathematically meaningless) choice of the external libraries, used only to exhibit concrete
executions next to the theorems: identity transforms, and step interpolation (value of the next knot). -/
namespace Atsc

def Ext.dummy : Ext where
  fftFwd := id
  fftInv := id
  norm := fun c => c.re
  spline := fun keys t => (keys.find? fun k => t.le k.t).map (·.value)
  idw := fun ps vs t => (((ps.zip vs).find? fun k => t.le k.1).map (·.2)).getD (vs.headD FP.zero)

theorem Ext.dummy_lawful : Ext.dummy.Lawful := ⟨fun _ => rfl, fun _ => rfl⟩

theorem find_knot {α : Type} (l : List α) (t : α → F64) (hs : l.Pairwise fun a b => (t a).lt (t b) = true)
    (k : α) (hk : k ∈ l) (hn : (t k).isNaN = false) : l.find? (fun a => (t k).le (t a)) = some k := by
  induction l with
  | nil => simp at hk
  | cons a l ih =>
    rw [List.pairwise_cons] at hs
    rcases List.mem_cons.1 hk with rfl | hk
    · rw [List.find?_cons_of_pos]
      exact FP.le_iff.2 ⟨hn, hn, le_refl _⟩
    · rw [List.find?_cons_of_neg]
      · exact ih hs.2 hk
      · intro hc
        have h1 := FP.lt_iff.1 (hs.1 k hk)
        have h2 := FP.le_iff.1 hc
        omega

theorem F64.lit_lt' {i j : Nat} (h : i < j) (hj : j < 2 ^ 53) : (F64.lit i).lt (F64.lit j) = true := by
  have hi := F64.lit_exact (n := (i : Int)) (by simp; omega)
  have hj := F64.lit_exact (n := (j : Int)) (by simp; omega)
  refine FP.lt_iff.2 ⟨FP.isFinite_not_nan hi.2, FP.isFinite_not_nan hj.2, ?_⟩
  rw [hi.1, hj.1]
  have : 0 < 2 ^ FP.qexp 52 11 := FP.qpow_pos _ _
  generalize 2 ^ FP.qexp 52 11 = Q at this
  exact Int.mul_lt_mul_of_pos_right (by omega) (by omega)

theorem Ext.dummy_interpolates : Ext.dummy.Interpolates where
  spline := by
    intro keys hs hf _ k hk
    obtain ⟨⟨n, hn, ht⟩, hv, -⟩ := hf k hk
    refine ⟨k.value, ?_, FP.feq_refl (FP.isFinite_not_nan hv)⟩
    show (keys.find? fun a => k.t.le a.t).map (·.value) = _
    rw [find_knot keys (·.t) hs k hk (by rw [ht]; exact FP.isFinite_not_nan (F64.lit_exact (by simp; omega)).2)]
    rfl
  idw := by
    intro ps0 vs hl hs hp hv i h1 h2
    obtain ⟨ps, hps⟩ : ∃ ps, ps = ps0.map fun p : Nat => F64.lit (p : Int) := ⟨_, rfl⟩
    have hi : i < ps.length := by simp [hps, h1]
    have hpi : F64.lit ((ps0[i] : Nat) : Int) = ps[i] := by simp [hps]
    rw [hpi, ← hps]
    have hz : (ps.zip vs).find? (fun a => (ps[i]).le a.1) = some (ps[i], vs[i]) := by
      refine find_knot (ps.zip vs) (·.1) ?_ (ps[i], vs[i]) ?_ ?_
      · have : ((ps.zip vs).map Prod.fst).Pairwise fun a b => a.lt b = true := by
          rw [List.map_fst_zip (by simp [hps, hl]), hps, List.pairwise_map]
          exact hs.imp_of_mem fun {a b} _ hb h => F64.lit_lt' h (hp b hb)
        rw [List.pairwise_map] at this; exact this
      · rw [List.mem_iff_getElem]
        exact ⟨i, by simp; omega, by simp⟩
      · rw [← hpi]
        exact FP.isFinite_not_nan (F64.lit_exact (by have := hp _ (List.getElem_mem h1); simp; omega)).2
    show ((((ps.zip vs).find? fun k => (ps[i]).le k.1).map (·.2)).getD (vs.headD FP.zero)).feq vs[i] = true
    rw [hz]
    exact FP.feq_refl (FP.isFinite_not_nan (hv _ (List.getElem_mem _)).1)

/-- The computation succeeds and its result passes the test (for concrete executions). -/
def okAnd {α : Type} (x : Except Panic α) (p : α → Bool) : Bool :=
  match x with
  | .ok a => p a
  | .error _ => false
theorem okAnd_iff {α : Type} {x : Except Panic α} {p : α → Bool} : okAnd x p = true ↔ ∃ a, x = .ok a ∧ p a = true := by
  cases x <;> simp [okAnd]

end Atsc
