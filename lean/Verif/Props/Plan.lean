import Verif.Model.Optimizer
import Verif.Props.Utils
import Mathlib.Algebra.BigOperators.Group.List.Basic
/- C35, C36: cleaning and chunking. -/
namespace Atsc
open FP

/-- C36: cleaning keeps exactly the finite samples, in order. -/
theorem C36_clean (data : List F64) : cleanData data = data.filter (fun x => x.isFinite) := by
  unfold cleanData
  apply List.filter_congr
  intro x _
  rw [Bool.eq_iff_iff, isFinite_iff]; simp

/-- C36: membership form: a sample survives exactly when it is finite, and the relative order is kept. -/
theorem C36_members (data : List F64) :
    (∀ x, x ∈ cleanData data ↔ x ∈ data ∧ x.isFinite = true) ∧ (cleanData data).Sublist data ∧
      (AllFinite data → cleanData data = data) := by
  rw [C36_clean]
  refine ⟨fun x => List.mem_filter, List.filter_sublist, fun h => List.filter_eq_self.2 h⟩

/-- C36: cleaning twice changes nothing. -/
theorem C36_idempotent (data : List F64) : cleanData (cleanData data) = cleanData data := by
  unfold cleanData; rw [List.filter_filter]; simp

example : cleanData [F64.lit 1, FP.nan, F64.lit 2, FP.inf true] = [F64.lit 1, F64.lit 2] := by decide +kernel

theorem chunkLoop_spec : ∀ (fuel len : Nat), len ≤ fuel →
    (chunkLoop fuel len).sum = len ∧ (∀ x ∈ chunkLoop fuel len, 0 < x ∧ x ≤ 131072 ∧ x ≤ len) ∧
    (∀ x ∈ (chunkLoop fuel len).dropLast, ∃ k, x = 2 ^ k) ∧ (chunkLoop fuel len).Pairwise (· ≥ ·) := by
  intro fuel
  induction fuel with
  | zero => intro len h; have : len = 0 := by omega
            subst this; simp [chunkLoop]
  | succ f ih =>
    intro len h
    have step : ∀ c, 0 < c → c ≤ 131072 → c ≤ len → (∃ k, c = 2 ^ k) → (∀ x ∈ chunkLoop f (len - c), x ≤ c) →
        (c :: chunkLoop f (len - c)).sum = len ∧ (∀ x ∈ c :: chunkLoop f (len - c), 0 < x ∧ x ≤ 131072 ∧ x ≤ len) ∧
        (∀ x ∈ (c :: chunkLoop f (len - c)).dropLast, ∃ k, x = 2 ^ k) ∧ (c :: chunkLoop f (len - c)).Pairwise (· ≥ ·) := by
      intro c h0 h1 h2 h3 h4
      obtain ⟨i1, i2, i3, i4⟩ := ih (len - c) (by omega)
      refine ⟨by rw [List.sum_cons, i1]; omega, ?_, ?_, ?_⟩
      · intro x hx
        rcases List.mem_cons.1 hx with rfl | hx
        · exact ⟨h0, h1, h2⟩
        · have := i2 x hx; omega
      · intro x hx
        cases hl : chunkLoop f (len - c) with
        | nil => rw [hl] at hx; simp at hx
        | cons a t =>
          rw [hl, List.dropLast_cons_of_ne_nil (by simp)] at hx
          rcases List.mem_cons.1 hx with rfl | hx
          · exact h3
          · exact i3 x (by rw [hl]; exact hx)
      · exact List.pairwise_cons.2 ⟨h4, i4⟩
    simp only [chunkLoop]
    split_ifs with h0 h1 h2
    · subst h0; simp
    · unfold maxFrameSize at *
      refine step 131072 (by omega) (by omega) h1 ⟨17, rfl⟩ fun x hx => ?_
      exact ((ih (len - 131072) (by omega)).2.1 x hx).2.1
    · unfold minFrameSize at *
      refine ⟨by simp, ?_, by simp, by simp⟩
      intro x hx; simp only [List.mem_singleton] at hx; omega
    · obtain ⟨⟨p1, k, p2⟩, _⟩ := C34_prev_power_of_two len (by omega)
      have p3 := C34_more_than_half len (by omega)
      unfold maxFrameSize at h1
      refine step _ (by omega) (by omega) p1 ⟨k, p2⟩ fun x hx => ?_
      have := ((ih (len - prevPowerOfTwo len) (by omega)).2.1 x hx).2.2
      omega

theorem assignCompressor_ok (n : Nat) : ∀ (sizes : List Nat) (s : Nat), s + sizes.sum ≤ n →
    assignCompressor n s sizes = .ok (List.replicate sizes.length .fft) := by
  intro sizes
  induction sizes with
  | nil => intro s _; rfl
  | cons a t ih =>
    intro s h
    rw [List.sum_cons] at h
    simp only [assignCompressor]
    rw [if_neg (by omega), ih (s + a) (by omega)]
    rfl

theorem execLoop_ok (p : Plan) (c : Compressor) : ∀ (sizes : List Nat) (i s : Nat),
    p.compressors = List.replicate (i + sizes.length) c → s + sizes.sum ≤ p.data.length →
    ∃ ex, execLoop p i s sizes = .ok ex ∧ ex.map (fun x => x.2.length) = sizes ∧ (∀ x ∈ ex, x.1 = c) ∧
      (ex.map Prod.snd).flatten = (p.data.drop s).take sizes.sum := by
  intro sizes
  induction sizes with
  | nil => intro i s _ _; exact ⟨[], rfl, rfl, by simp, by simp⟩
  | cons a t ih =>
    intro i s h1 h2
    rw [List.sum_cons] at h2
    obtain ⟨ex, e1, e2, e3, e4⟩ := ih (i + 1) (s + a) (by rw [h1, List.length_cons]; congr 1; omega) (by omega)
    have hc : p.compressors[i]? = some c := by rw [h1, List.getElem?_replicate]; simp
    refine ⟨(c, (p.data.drop s).take a) :: ex, ?_, ?_, ?_, ?_⟩
    · simp only [execLoop, hc]
      rw [if_neg (by omega), e1]; rfl
    · simp only [List.map_cons, e2, List.length_take, List.length_drop]
      congr 1; omega
    · intro x hx
      rcases List.mem_cons.1 hx with rfl | hx
      · rfl
      · exact e3 x hx
    · rw [List.map_cons, List.flatten_cons, e4, List.sum_cons, List.take_add, List.drop_drop]

/-- C35: planning never panics; the planned chunks concatenated in order are the finite samples of the input; every chunk is
non-empty and has at most 131072 samples; every chunk but the last has a power-of-two length; lengths never grow; each chunk
is assigned the selected compressor. -/
theorem C35_partition (data : List F64) (c : Compressor) :
    ∃ p ex, Plan.plan data = .ok p ∧ (p.setCompressor c).getExecution = .ok ex ∧
      (ex.map Prod.snd).flatten = data.filter (fun x => x.isFinite) ∧
      (∀ x ∈ ex, x.1 = c ∧ 0 < x.2.length ∧ x.2.length ≤ 131072) ∧
      (∀ x ∈ ex.dropLast, ∃ k, x.2.length = 2 ^ k) ∧
      ex.Pairwise (fun x y => y.2.length ≤ x.2.length) ∧
      p.compressors.length = ex.length ∧ p.chunkSizes = ex.map (fun x => x.2.length) := by
  have hc := chunkLoop_spec (cleanData data).length (cleanData data).length (le_refl _)
  obtain ⟨c1, c2, c3, c4⟩ := hc
  have ha := assignCompressor_ok (cleanData data).length (chunkSizes (cleanData data).length) 0
    (by rw [Nat.zero_add]; exact le_of_eq c1)
  refine ⟨{ data := cleanData data, chunkSizes := chunkSizes (cleanData data).length
            compressors := List.replicate (chunkSizes (cleanData data).length).length .fft }, ?_⟩
  obtain ⟨ex, e1, e2, e3, e4⟩ := execLoop_ok
    (Plan.setCompressor { data := cleanData data, chunkSizes := chunkSizes (cleanData data).length
                          compressors := List.replicate (chunkSizes (cleanData data).length).length .fft } c) c
    (chunkSizes (cleanData data).length) 0 0 (by simp [Plan.setCompressor])
    (by rw [Nat.zero_add]; exact le_of_eq c1)
  have hlen : ∀ x ∈ ex, x.2.length ∈ chunkSizes (cleanData data).length := fun x hx => by
    rw [← e2]; exact List.mem_map.2 ⟨x, hx, rfl⟩
  refine ⟨ex, ?_, e1, ?_, ?_, ?_, ?_, ?_, e2.symm⟩
  · unfold Plan.plan; simp only [ha]; rfl
  · rw [e4, List.drop_zero]
    unfold chunkSizes at *
    rw [c1]
    show (cleanData data).take (cleanData data).length = _
    rw [List.take_length, C36_clean]
  · intro x hx
    have := c2 _ (hlen x hx)
    exact ⟨e3 x hx, this.1, this.2.1⟩
  · intro x hx
    apply c3
    unfold chunkSizes at e2
    rw [← e2, ← List.map_dropLast]
    exact List.mem_map.2 ⟨x, hx, rfl⟩
  · unfold chunkSizes at e2
    rw [← e2, List.pairwise_map] at c4
    exact c4
  · have := congrArg List.length e2
    simp at this ⊢; omega

/-- C35: so an empty cleaned input gives no chunk and a non-empty one at least one. -/
theorem C35_no_chunk_iff (data : List F64) (c : Compressor) (p : Plan) (ex : List (Compressor × List F64))
    (hp : Plan.plan data = .ok p) (he : (p.setCompressor c).getExecution = .ok ex) :
    ex = [] ↔ ∀ x ∈ data, x.isFinite = false := by
  obtain ⟨p', ex', h1, h2, h3, h4, _⟩ := C35_partition data c
  rw [hp] at h1; injection h1 with h1; subst h1
  rw [he] at h2; injection h2 with h2; subst h2
  constructor
  · rintro rfl
    simp only [List.map_nil, List.flatten_nil] at h3
    intro x hx
    by_contra hc
    have : x ∈ data.filter (fun x => x.isFinite) := List.mem_filter.2 ⟨hx, by simpa using hc⟩
    rw [← h3] at this; simp at this
  · intro h
    have : data.filter (fun x => x.isFinite) = [] := List.filter_eq_nil_iff.2 fun x hx => by simp [h x hx]
    rw [this] at h3
    cases ex with
    | nil => rfl
    | cons a t =>
      have h5 := (h4 a (by simp)).2.1
      rw [List.map_cons, List.flatten_cons, List.append_eq_nil_iff] at h3
      rw [h3.1] at h5; simp at h5

example : chunkSizes (131072 * 3 + 1765) = [131072, 131072, 131072, 1024, 512, 229] := by decide +kernel
example : chunkSizes 12032 = [8192, 2048, 1024, 512, 256] ∧ chunkSizes 31 = [31] ∧ chunkSizes 2048 = [2048] := by
  decide +kernel

end Atsc
