import Verif.Model.Heap
import Mathlib.Data.List.Perm.Basic
/- `BinaryHeap`: every element comes out exactly once, and, when the comparison is a total preorder on the elements, in decreasing order. -/
namespace Atsc
namespace Heap
variable {α : Type} {cmp : α → α → Ordering}

/-- `cmp` is a total preorder on the elements satisfying `S`. -/
structure Good (cmp : α → α → Ordering) (S : α → Prop) : Prop where
  total : ∀ a b, S a → S b → le cmp a b = false → le cmp b a = true
  trans : ∀ a b c, S a → S b → S c → le cmp a b = true → le cmp b c = true → le cmp a c = true
  ge_le : ∀ a b, S a → S b → ge cmp a b = le cmp b a
  lt_le : ∀ a b, S a → S b → lt cmp a b = !(le cmp b a)

/-! ### Permutation -/

theorem swap_getElem (l : List α) (i j : Nat) (hi : i < l.length) (hj : j < l.length) : swap l i j = (l.set i l[j]).set j l[i] := by
  unfold swap
  rw [List.getElem?_eq_getElem hi, List.getElem?_eq_getElem hj]

theorem swap_perm (l : List α) (i j : Nat) : (swap l i j).Perm l := by
  by_cases hi : i < l.length
  · by_cases hj : j < l.length
    · rw [swap_getElem l i j hi hj]
      have h := Array.swap_perm (xs := l.toArray) (i := i) (j := j) (by simpa using hi) (by simpa using hj)
      rw [Array.perm_iff_toList_perm] at h
      simpa [Array.swap] using h
    · have : l[j]? = none := by simp; omega
      unfold swap; rw [this]; cases l[i]? <;> exact .refl _
  · have : l[i]? = none := by simp; omega
    unfold swap; rw [this]

theorem siftUp_perm : ∀ (fuel : Nat) (l : List α) (pos : Nat), (siftUp cmp fuel l pos).Perm l := by
  intro fuel
  induction fuel with
  | zero => intro l pos; exact .refl _
  | succ f ih =>
    intro l pos
    rw [siftUp]
    split_ifs
    · exact .refl _
    · exact .refl _
    · exact (ih _ _).trans (swap_perm _ _ _)

theorem siftDown_perm : ∀ (fuel : Nat) (l : List α) (pos : Nat), (siftDown cmp fuel l pos).Perm l := by
  intro fuel
  induction fuel with
  | zero => intro l pos; exact .refl _
  | succ f ih =>
    intro l pos
    rw [siftDown]
    dsimp only
    split_ifs
    · exact .refl _
    · exact (ih _ _).trans (swap_perm _ _ _)
    · exact swap_perm _ _ _
    · exact .refl _

theorem toBottom_perm : ∀ (fuel : Nat) (l : List α) (pos : Nat), (toBottom cmp fuel l pos).1.Perm l := by
  intro fuel
  induction fuel with
  | zero => intro l pos; exact .refl _
  | succ f ih =>
    intro l pos
    rw [toBottom]
    dsimp only
    split_ifs
    · exact (ih _ _).trans (swap_perm _ _ _)
    · exact swap_perm _ _ _
    · exact .refl _

theorem siftDownToBottom_perm (l : List α) : (siftDownToBottom cmp l).Perm l :=
  (siftUp_perm _ _ _).trans (toBottom_perm _ _ _)

theorem rebuildLoop_perm : ∀ (n : Nat) (l : List α), (rebuildLoop cmp n l).Perm l := by
  intro n
  induction n with
  | zero => intro l; exact .refl _
  | succ n ih => intro l; rw [rebuildLoop]; exact (ih _).trans (siftDown_perm _ _ _)

theorem pop_perm {l l' : List α} {x : α} (h : pop cmp l = some (x, l')) : (x :: l').Perm l := by
  unfold pop at h
  cases hl : l.getLast? with
  | none => rw [hl] at h; simp at h
  | some item =>
    rw [hl] at h
    dsimp only at h
    have hs : l = l.dropLast ++ [item] := by
      have hne : l ≠ [] := by rintro rfl; simp at hl
      rw [List.getLast?_eq_some_getLast hne] at hl
      rw [← Option.some.inj hl, List.dropLast_append_getLast]
    cases hd : l.dropLast with
    | nil =>
      rw [hd] at h hs
      simp only [Option.some.injEq, Prod.mk.injEq] at h
      obtain ⟨rfl, rfl⟩ := h
      rw [hs]; exact .refl _
    | cons root rest =>
      rw [hd] at h hs
      simp only [Option.some.injEq, Prod.mk.injEq] at h
      obtain ⟨rfl, rfl⟩ := h
      rw [hs]
      refine (List.Perm.cons _ (siftDownToBottom_perm _)).trans ?_
      rw [List.cons_append]
      exact List.Perm.cons _ (List.perm_append_singleton _ _).symm

theorem pop_none {l : List α} (h : pop cmp l = none) : l = [] := by
  unfold pop at h
  cases hl : l.getLast? with
  | none => simpa using hl
  | some item =>
    rw [hl] at h
    dsimp only at h
    split at h <;> simp at h

theorem popAll_perm : ∀ (fuel : Nat) (l : List α), l.length ≤ fuel → (popAll cmp fuel l).Perm l := by
  intro fuel
  induction fuel with
  | zero => intro l h; rw [List.length_eq_zero_iff.1 (by omega : l.length = 0)]; exact .refl _
  | succ f ih =>
    intro l h
    rw [popAll]
    cases hp : pop cmp l with
    | none => rw [pop_none hp]
    | some q =>
      obtain ⟨x, l'⟩ := q
      have hpp := pop_perm hp
      have := hpp.length_eq
      rw [List.length_cons] at this
      exact (List.Perm.cons x (ih l' (by omega))).trans hpp

/-- Whatever the comparison does, every element is popped exactly once. -/
theorem pops_perm (cmp : α → α → Ordering) (l : List α) : (pops cmp l).Perm l := by
  unfold pops fromVec
  have h := rebuildLoop_perm (cmp := cmp) (l.length / 2) l
  exact (popAll_perm _ _ (Nat.le_of_eq h.length_eq)).trans h

/-! ### Order -/

/-- The element at `i` is not greater than the one at `j`. -/
def O (cmp : α → α → Ordering) (l : List α) (i j : Nat) : Prop := ∀ a b, l[i]? = some a → l[j]? = some b → le cmp a b = true

/-- The transposition of two positions. -/
def tr (i j k : Nat) : Nat := if k = i then j else if k = j then i else k

theorem swap_get (l : List α) (i j k : Nat) (hi : i < l.length) (hj : j < l.length) : (swap l i j)[k]? = l[tr i j k]? := by
  rw [swap_getElem l i j hi hj]
  unfold tr
  by_cases h1 : k = i
  · subst h1
    rw [if_pos rfl]
    by_cases h2 : k = j
    · subst h2; rw [List.getElem?_set_self (by simpa using hi)]; simp
    · rw [List.getElem?_set_ne (Ne.symm h2), List.getElem?_set_self hi]; simp
  · rw [if_neg h1]
    by_cases h2 : k = j
    · subst h2; rw [if_pos rfl, List.getElem?_set_self (by simpa using hj)]; simp
    · rw [if_neg h2, List.getElem?_set_ne (Ne.symm h2), List.getElem?_set_ne (Ne.symm h1)]

theorem swap_length (l : List α) (i j : Nat) : (swap l i j).length = l.length := (swap_perm l i j).length_eq

theorem O_swap {l : List α} {i j : Nat} (hi : i < l.length) (hj : j < l.length) (x y : Nat) : O cmp (swap l i j) x y ↔ O cmp l (tr i j x) (tr i j y) := by
  unfold O; rw [swap_get l i j x hi hj, swap_get l i j y hi hj]

theorem O_test {l : List α} {i j : Nat} (hi : i < l.length) (hj : j < l.length) : test (le cmp) l i j = true ↔ O cmp l i j := by
  unfold test O
  rw [List.getElem?_eq_getElem hi, List.getElem?_eq_getElem hj]
  simp

variable {S : α → Prop}

theorem O_trans (hg : Good cmp S) {l : List α} (hS : ∀ x ∈ l, S x) {i j k : Nat} (hj : j < l.length) (h1 : O cmp l i j) (h2 : O cmp l j k) : O cmp l i k := by
  intro a c ha hc
  have hb := List.getElem?_eq_getElem hj
  exact hg.trans a l[j] c (hS _ (List.mem_of_getElem? ha)) (hS _ (List.getElem_mem hj)) (hS _ (List.mem_of_getElem? hc)) (h1 a _ ha hb) (h2 _ c hb hc)

theorem O_total (hg : Good cmp S) {l : List α} (hS : ∀ x ∈ l, S x) {i j : Nat} (h : ¬ O cmp l i j) : O cmp l j i := by
  unfold O at h
  push Not at h
  obtain ⟨a, b, ha, hb, hab⟩ := h
  intro b' a' hb' ha'
  rw [ha] at ha'; rw [hb] at hb'
  obtain rfl := Option.some.inj ha'
  obtain rfl := Option.some.inj hb'
  exact hg.total a b (hS _ (List.mem_of_getElem? ha)) (hS _ (List.mem_of_getElem? hb)) (by simpa using hab)

theorem S_swap {l : List α} (hS : ∀ x ∈ l, S x) (i j : Nat) : ∀ x ∈ swap l i j, S x := fun x hx => hS x ((swap_perm l i j).mem_iff.1 hx)

/-- Every element is not greater than its parent. -/
def IsHeap (cmp : α → α → Ordering) (l : List α) : Prop := ∀ i, 0 < i → i < l.length → O cmp l i ((i - 1) / 2)

theorem siftUp_heap (hg : Good cmp S) : ∀ (fuel : Nat) (l : List α) (pos : Nat), pos ≤ fuel → pos < l.length → (∀ x ∈ l, S x) →
    (∀ i, 0 < i → i < l.length → i ≠ pos → O cmp l i ((i - 1) / 2)) →
    (0 < pos → ∀ c, 0 < c → c < l.length → (c - 1) / 2 = pos → O cmp l c ((pos - 1) / 2)) → IsHeap cmp (siftUp cmp fuel l pos) := by
  intro fuel
  induction fuel with
  | zero =>
    intro l pos hp hl hS h1 h2 i hi hil
    rw [siftUp] at hil ⊢
    exact h1 i hi hil (by omega)
  | succ f ih =>
    intro l pos hp hl hS h1 h2
    rw [siftUp]
    by_cases h0 : pos = 0
    · rw [if_pos h0]
      intro i hi hil
      exact h1 i hi hil (by omega)
    · rw [if_neg h0]
      set q := (pos - 1) / 2 with hq
      have hql : q < l.length := by omega
      by_cases ht : test (le cmp) l pos q = true
      · rw [if_pos ht]
        intro i hi hil
        by_cases hip : i = pos
        · subst hip; exact (O_test hl hql).1 ht
        · exact h1 i hi hil hip
      · rw [if_neg ht]
        have hqp : O cmp l q pos := O_total hg hS (mt (O_test hl hql).2 ht)
        refine ih _ q (by omega) (by rw [swap_length]; exact hql) (S_swap hS _ _) ?_ ?_
        · intro i hi hil hiq
          rw [swap_length] at hil
          rw [O_swap hl hql]
          unfold tr
          by_cases hip : i = pos
          · subst hip
            rw [if_pos rfl, ← hq, if_neg (by omega), if_pos rfl]; exact hqp
          · rw [if_neg hip, if_neg hiq]
            by_cases hpp : (i - 1) / 2 = pos
            · rw [if_pos hpp]; exact h2 (by omega) i hi hil hpp
            · rw [if_neg hpp]
              by_cases hpq : (i - 1) / 2 = q
              · rw [if_pos hpq]
                have := h1 i hi hil hip
                rw [hpq] at this
                exact O_trans hg hS hql this hqp
              · rw [if_neg hpq]; exact h1 i hi hil hip
        · intro hq0 c hc hcl hcq
          rw [swap_length] at hcl
          rw [O_swap hl hql]
          have hgq : O cmp l q ((q - 1) / 2) := h1 q hq0 hql (by omega)
          unfold tr
          rw [if_neg (show ¬ (q - 1) / 2 = pos by omega), if_neg (show ¬ (q - 1) / 2 = q by omega)]
          by_cases hcp : c = pos
          · rw [if_pos hcp]; exact hgq
          · rw [if_neg hcp, if_neg (by omega)]
            have := h1 c hc hcl hcp
            rw [hcq] at this
            exact O_trans hg hS hql this hgq

theorem bigger_spec (hg : Good cmp S) {l : List α} (hS : ∀ x ∈ l, S x) {c : Nat} (hc : c + 1 < l.length) :
    (bigger cmp l c = c ∨ bigger cmp l c = c + 1) ∧ ∀ i, i = c ∨ i = c + 1 → O cmp l i (bigger cmp l c) := by
  have hrefl : ∀ i, O cmp l i i := by
    intro i
    by_contra h
    exact h (O_total hg hS h)
  unfold bigger
  split_ifs with h
  · rw [O_test (by omega) hc] at h
    exact ⟨.inr rfl, fun i hi => by rcases hi with rfl | rfl; exacts [h, hrefl _]⟩
  · rw [O_test (by omega) hc] at h
    exact ⟨.inl rfl, fun i hi => by rcases hi with rfl | rfl; exacts [hrefl _, O_total hg hS h]⟩

/-- What `toBottom` keeps: order everywhere except around the hole, which sits between its children and its parent. -/
structure Around (cmp : α → α → Ordering) (l : List α) (h : Nat) : Prop where
  ord : ∀ i, 0 < i → i < l.length → i ≠ h → (i - 1) / 2 ≠ h → O cmp l i ((i - 1) / 2)
  gap : 0 < h → ∀ c, 0 < c → c < l.length → (c - 1) / 2 = h → O cmp l c ((h - 1) / 2)

theorem around_step {l : List α} {h c : Nat} (A : Around cmp l h) (hl : h < l.length) (hc : c < l.length) (hch : (c - 1) / 2 = h) (hc0 : 0 < c)
    (hmax : ∀ i, 0 < i → i < l.length → (i - 1) / 2 = h → O cmp l i c) : Around cmp (swap l h c) c := by
  have hne : h ≠ c := by omega
  constructor
  · intro i hi hil hic hpc
    rw [swap_length] at hil
    rw [O_swap hl hc]
    unfold tr
    by_cases hih : i = h
    · subst hih
      rw [if_pos rfl, if_neg (by omega), if_neg (by omega)]
      exact A.gap hi c hc0 hc hch
    · rw [if_neg hih, if_neg hic]
      by_cases hph : (i - 1) / 2 = h
      · rw [if_pos hph]; exact hmax i hi hil hph
      · rw [if_neg hph, if_neg hpc]; exact A.ord i hi hil hih hph
  · intro _ d hd hdl hdc
    rw [swap_length] at hdl
    rw [O_swap hl hc, hch]
    unfold tr
    rw [if_neg (by omega), if_neg (by omega), if_pos rfl]
    have := A.ord d hd hdl (by omega) (by omega)
    rwa [hdc] at this

theorem toBottom_spec (hg : Good cmp S) : ∀ (fuel : Nat) (l : List α) (h : Nat), l.length ≤ fuel + h → h < l.length → (∀ x ∈ l, S x) → Around cmp l h →
    Around cmp (toBottom cmp fuel l h).1 (toBottom cmp fuel l h).2 ∧ (toBottom cmp fuel l h).2 < l.length ∧
      l.length ≤ 2 * (toBottom cmp fuel l h).2 + 1 := by
  intro fuel
  induction fuel with
  | zero => intro l h hf hl; omega
  | succ f ih =>
    intro l h hf hl hS A
    rw [toBottom]
    dsimp only
    split_ifs with h1 h2
    · obtain ⟨b1, b2⟩ := bigger_spec hg hS (c := 2 * h + 1) (by omega)
      set c := bigger cmp l (2 * h + 1) with hcdef
      have A' := around_step A hl (c := c) (by omega) (by omega) (by omega) (fun i hi hil hih => b2 i (by omega))
      have := ih (swap l h c) c (by rw [swap_length]; omega) (by rw [swap_length]; omega) (S_swap hS _ _) A'
      rw [swap_length] at this
      exact this
    · have A' := around_step A hl (c := 2 * h + 1) (by omega) (by omega) (by omega) (fun i hi hil hih => by
        have : i = 2 * h + 1 := by omega
        subst this
        by_contra hn; exact hn (O_total hg hS hn))
      exact ⟨A', by omega, by dsimp only; omega⟩
    · exact ⟨A, hl, by omega⟩

theorem siftDownToBottom_heap (hg : Good cmp S) {l : List α} (hne : l ≠ []) (hS : ∀ x ∈ l, S x)
    (h : ∀ i, 0 < i → i < l.length → (i - 1) / 2 ≠ 0 → O cmp l i ((i - 1) / 2)) : IsHeap cmp (siftDownToBottom cmp l) := by
  have hpos : 0 < l.length := List.length_pos_of_ne_nil hne
  obtain ⟨A, a1, a2⟩ := toBottom_spec hg l.length l 0 (by omega) hpos hS ⟨fun i hi hil _ hp => h i hi hil hp, fun h0 => absurd h0 (by omega)⟩
  have hp := toBottom_perm (cmp := cmp) l.length l 0
  have hlen := hp.length_eq
  unfold siftDownToBottom
  dsimp only
  refine siftUp_heap hg _ _ _ (Nat.le_refl _) (by omega) (fun x hx => hS x (hp.mem_iff.1 hx)) (fun i hi hil hih => A.ord i hi hil hih (by omega)) ?_
  intro h0 c hc hcl hch
  omega

theorem siftDown_spec (hg : Good cmp S) (n : Nat) : ∀ (fuel : Nat) (l : List α) (h : Nat), l.length ≤ fuel + h → h < l.length → n ≤ h → (∀ x ∈ l, S x) →
    (∀ i, 0 < i → i < l.length → n ≤ (i - 1) / 2 → (i - 1) / 2 ≠ h → O cmp l i ((i - 1) / 2)) →
    (n < h → ∀ c, 0 < c → c < l.length → (c - 1) / 2 = h → n ≤ (h - 1) / 2 → O cmp l c ((h - 1) / 2)) →
    ∀ i, 0 < i → i < l.length → n ≤ (i - 1) / 2 → O cmp (siftDown cmp fuel l h) i ((i - 1) / 2) := by
  intro fuel
  induction fuel with
  | zero => intro l h hf hl; omega
  | succ f ih =>
    intro l h hf hl hn hS h1 h2
    have hrefl : ∀ i, O cmp l i i := by
      intro i
      by_contra h
      exact h (O_total hg hS h)
    have htest : ∀ c, c < l.length → (test (ge cmp) l h c = true ↔ O cmp l c h) ∧ (test (lt cmp) l h c = true ↔ ¬ O cmp l c h) := by
      intro c hc
      unfold test O
      rw [List.getElem?_eq_getElem hl, List.getElem?_eq_getElem hc]
      dsimp only
      rw [hg.ge_le _ _ (hS _ (List.getElem_mem hl)) (hS _ (List.getElem_mem hc)), hg.lt_le _ _ (hS _ (List.getElem_mem hl)) (hS _ (List.getElem_mem hc))]
      simp
    have hswap : ∀ c, 0 < c → c < l.length → (c - 1) / 2 = h → (∀ i, 0 < i → i < l.length → (i - 1) / 2 = h → O cmp l i c) → O cmp l h c →
        ∀ i, 0 < i → i < l.length → n ≤ (i - 1) / 2 → (i - 1) / 2 ≠ c → O cmp (swap l h c) i ((i - 1) / 2) := by
      intro c hc0 hc hch hmax hhc i hi hil hni hic
      rw [O_swap hl hc]
      unfold tr
      by_cases hih : i = h
      · subst hih
        rw [if_pos rfl, if_neg (by omega), if_neg (by omega)]
        exact h2 (by omega) c hc0 hc hch hni
      · rw [if_neg hih]
        by_cases hiceq : i = c
        · subst hiceq
          rw [if_pos rfl, if_pos hch]; exact hhc
        · rw [if_neg hiceq]
          by_cases hph : (i - 1) / 2 = h
          · rw [if_pos hph]; exact hmax i hi hil hph
          · rw [if_neg hph, if_neg hic]; exact h1 i hi hil hni hph
    have hstay : (∀ i, 0 < i → i < l.length → (i - 1) / 2 = h → O cmp l i h) → ∀ i, 0 < i → i < l.length → n ≤ (i - 1) / 2 → O cmp l i ((i - 1) / 2) := by
      intro hc i hi hil hni
      by_cases hph : (i - 1) / 2 = h
      · rw [hph]; exact hc i hi hil hph
      · exact h1 i hi hil hni hph
    rw [siftDown]
    dsimp only
    split_ifs with c1 c2 c3
    · obtain ⟨b1, b2⟩ := bigger_spec hg hS (c := 2 * h + 1) (by omega)
      set c := bigger cmp l (2 * h + 1) with hcdef
      have hcl : c < l.length := by omega
      rw [(htest c hcl).1] at c2
      exact hstay fun i hi hil hih => O_trans hg hS hcl (b2 i (by omega)) c2
    · obtain ⟨b1, b2⟩ := bigger_spec hg hS (c := 2 * h + 1) (by omega)
      set c := bigger cmp l (2 * h + 1) with hcdef
      have hcl : c < l.length := by omega
      rw [(htest c hcl).1] at c2
      have hhc := O_total hg hS c2
      have := ih (swap l h c) c (by rw [swap_length]; omega) (by rw [swap_length]; omega) (by omega) (S_swap hS _ _)
        (by rw [swap_length]; exact hswap c (by omega) hcl (by omega) (fun i hi hil hih => b2 i (by omega)) hhc)
        (by
          rw [swap_length]
          intro _ d hd hdl hdc _
          rw [O_swap hl hcl, show (c - 1) / 2 = h by omega]
          unfold tr
          rw [if_neg (by omega), if_neg (by omega), if_pos rfl]
          have := h1 d hd hdl (by omega) (by omega)
          rwa [hdc] at this)
      rw [swap_length] at this
      exact this
    · have hcl : 2 * h + 1 < l.length := by omega
      have hhc := O_total hg hS ((htest _ hcl).2.1 c3.2)
      intro i hi hil hni
      refine hswap (2 * h + 1) (by omega) hcl (by omega) (fun j hj hjl hjh => ?_) hhc i hi hil hni (by omega)
      have : j = 2 * h + 1 := by omega
      rw [this]; exact hrefl _
    · refine hstay fun i hi hil hih => ?_
      have hcl : 2 * h + 1 = l.length - 1 := by omega
      have : i = 2 * h + 1 := by omega
      subst this
      by_contra hcon
      exact c3 ⟨hcl, (htest _ hil).2.2 hcon⟩

theorem rebuildLoop_heap (hg : Good cmp S) : ∀ (n : Nat) (l : List α), n ≤ l.length / 2 → (∀ x ∈ l, S x) →
    (∀ i, 0 < i → i < l.length → n ≤ (i - 1) / 2 → O cmp l i ((i - 1) / 2)) → IsHeap cmp (rebuildLoop cmp n l) := by
  intro n
  induction n with
  | zero => intro l _ _ h i hi hil; rw [rebuildLoop] at hil ⊢; exact h i hi hil (by omega)
  | succ n ih =>
    intro l hn hS h
    rw [rebuildLoop]
    have hp := siftDown_perm (cmp := cmp) l.length l n
    have hlen := hp.length_eq
    refine ih _ (by rw [hlen]; omega) (fun x hx => hS x (hp.mem_iff.1 hx)) ?_
    rw [hlen]
    exact siftDown_spec hg n l.length l n (by omega) (by omega) (Nat.le_refl _) hS (fun i hi hil hni hne => h i hi hil (by omega)) (fun hlt => absurd hlt (by omega))

theorem fromVec_heap (hg : Good cmp S) (l : List α) (hS : ∀ x ∈ l, S x) : IsHeap cmp (fromVec cmp l) := by
  unfold fromVec
  refine rebuildLoop_heap hg _ l (Nat.le_refl _) hS fun i hi hil hni => ?_
  omega

/-- The root of a heap is a greatest element. -/
theorem root_max (hg : Good cmp S) {l : List α} (hS : ∀ x ∈ l, S x) (h : IsHeap cmp l) : ∀ i, i < l.length → O cmp l i 0 := by
  intro i
  induction i using Nat.strongRecOn with
  | _ i ih =>
    intro hi
    by_cases h0 : i = 0
    · subst h0
      by_contra hn; exact hn (O_total hg hS hn)
    · exact O_trans hg hS (j := (i - 1) / 2) (by omega) (h i (by omega) hi) (ih _ (by omega) (by omega))

theorem pop_heap (hg : Good cmp S) {l l' : List α} {x : α} (hS : ∀ x ∈ l, S x) (hh : IsHeap cmp l) (h : pop cmp l = some (x, l')) :
    IsHeap cmp l' ∧ ∀ y ∈ l, le cmp y x = true := by
  have hroot : ∀ y ∈ l, ∀ r, l[0]? = some r → le cmp y r = true := by
    intro y hy r hr
    obtain ⟨i, hi, rfl⟩ := List.getElem_of_mem hy
    exact root_max hg hS hh i hi _ _ (List.getElem?_eq_getElem hi) hr
  unfold pop at h
  cases hl : l.getLast? with
  | none => rw [hl] at h; simp at h
  | some item =>
    rw [hl] at h
    dsimp only at h
    have hne : l ≠ [] := by rintro rfl; simp at hl
    have hs : l = l.dropLast ++ [item] := by
      rw [List.getLast?_eq_some_getLast hne] at hl
      rw [← Option.some.inj hl, List.dropLast_append_getLast]
    cases hd : l.dropLast with
    | nil =>
      rw [hd] at h hs
      simp only [Option.some.injEq, Prod.mk.injEq] at h
      obtain ⟨rfl, rfl⟩ := h
      exact ⟨fun i hi hil => absurd hil (by simp), fun y hy => hroot y hy _ (by rw [hs]; rfl)⟩
    | cons root rest =>
      rw [hd] at h hs
      simp only [Option.some.injEq, Prod.mk.injEq] at h
      obtain ⟨rfl, rfl⟩ := h
      have hr0 : l[0]? = some root := by rw [hs]; rfl
      refine ⟨?_, fun y hy => hroot y hy _ hr0⟩
      have hmem : ∀ x ∈ item :: rest, S x := by
        intro x hx
        refine hS x ?_
        rw [hs]
        rcases List.mem_cons.1 hx with rfl | hx
        · simp
        · simp [hx]
      refine siftDownToBottom_heap hg (by simp) hmem ?_
      intro i hi hil hp
      have hil' : i < l.length := by rw [hs]; simp at hil ⊢; omega
      have := hh i hi hil'
      have e : ∀ k, 0 < k → k < (item :: rest).length → (item :: rest)[k]? = l[k]? := by
        intro k hk hkl
        obtain ⟨k, rfl⟩ := Nat.exists_eq_succ_of_ne_zero (by omega : k ≠ 0)
        rw [hs]
        simp at hkl ⊢
        rw [List.getElem?_append_left hkl]
      unfold O at this ⊢
      rw [e i hi hil, e _ (by omega) (by omega)]
      exact this

theorem popAll_sorted (hg : Good cmp S) : ∀ (fuel : Nat) (l : List α), l.length ≤ fuel → (∀ x ∈ l, S x) → IsHeap cmp l →
    (popAll cmp fuel l).Pairwise fun a b => le cmp b a = true := by
  intro fuel
  induction fuel with
  | zero => intro l _ _ _; exact .nil
  | succ f ih =>
    intro l hl hS hh
    rw [popAll]
    cases hp : pop cmp l with
    | none => exact .nil
    | some q =>
      obtain ⟨x, l'⟩ := q
      have hpp := pop_perm hp
      have hlen := hpp.length_eq
      rw [List.length_cons] at hlen
      obtain ⟨k1, k2⟩ := pop_heap hg hS hh hp
      have hS' : ∀ y ∈ l', S y := fun y hy => hS y (hpp.mem_iff.1 (List.mem_cons_of_mem _ hy))
      refine List.Pairwise.cons ?_ (ih l' (by omega) hS' k1)
      intro y hy
      have : y ∈ l' := (popAll_perm f l' (by omega)).mem_iff.1 hy
      exact k2 y (hpp.mem_iff.1 (List.mem_cons_of_mem _ this))

/-- If the comparison is a total preorder on the elements, they are popped in decreasing order. -/
theorem pops_sorted (hg : Good cmp S) (l : List α) (hS : ∀ x ∈ l, S x) : (pops cmp l).Pairwise fun a b => le cmp b a = true := by
  unfold pops
  have hp : (fromVec cmp l).Perm l := rebuildLoop_perm _ _
  exact popAll_sorted hg _ _ (Nat.le_of_eq hp.length_eq) (fun x hx => hS x (hp.mem_iff.1 hx)) (fromVec_heap hg l hS)

end Heap
end Atsc
