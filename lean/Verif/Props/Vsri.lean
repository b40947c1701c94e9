import Verif.Lemmas.Vsri
import Verif.Spec.Dummy
/- Properties of the time index: updates (C40–C43), overflow (C50) and day arithmetic (C51). -/
namespace Atsc
open Vsri

/-! ### C40 -/

/-- C40: a call is refused exactly when the point is before the current maximum; a refusal changes nothing; a success sets the maximum. -/
theorem C40_update (p : Profile) (v v' : Vsri) (y : Int) (r : Bool) (h : v.update p y = .ok (v', r)) :
    (r = false ↔ y < v.max) ∧ (r = false → v' = v) ∧ (r = true → v'.max = y) := by
  unfold Vsri.update at h
  unfold Vsri.max
  split at h
  · rename_i hlt
    obtain ⟨rfl, rfl⟩ := Prod.mk.inj (Except.ok.inj h)
    simp [hlt]
  · rename_i hge
    have key : ∀ {w : Vsri}, w.maxTs = y → (Except.ok (w, true) : Except Panic (Vsri × Bool)) = .ok (v', r) →
        (r = false ↔ y < v.maxTs) ∧ (r = false → v' = v) ∧ (r = true → v'.maxTs = y) := by
      intro w hw he
      obtain ⟨rfl, rfl⟩ := Prod.mk.inj (Except.ok.inj he)
      exact ⟨by simp only [Bool.true_eq_false, false_iff]; exact hge, by simp, fun _ => hw⟩
    dsimp only at h
    split at h
    · cases hs : Vsri.fakeSegment p { minTs := y, maxTs := y, segs := v.segs } y with
      | error e => rw [hs] at h; cases h
      | ok s => rw [hs] at h; exact key rfl h
    · split at h
      · cases hs : Vsri.generateSegment p { minTs := v.minTs, maxTs := y, segs := v.segs } y with
        | error e => rw [hs] at h; cases h
        | ok s => rw [hs] at h; exact key rfl h
      · cases hf : Vsri.fitsSegment p { minTs := v.minTs, maxTs := y, segs := v.segs } y with
        | error e => rw [hf] at h; cases h
        | ok b =>
          rw [hf] at h; simp only [bind, Except.bind] at h
          cases b with
          | true =>
            simp only [if_true] at h
            cases hs : i32op p ((Vsri.current { minTs := v.minTs, maxTs := y, segs := v.segs }).n + 1) with
            | error e => rw [hs] at h; cases h
            | ok s => rw [hs] at h; exact key rfl h
          | false =>
            simp only [Bool.false_eq_true, if_false] at h
            cases hs : Vsri.fakeSegment p { minTs := v.minTs, maxTs := y, segs := v.segs } y with
            | error e => rw [hs] at h; cases h
            | ok s => rw [hs] at h; exact key rfl h

/-- C40: refusing never panics. -/
theorem C40_refusal_safe (p : Profile) (v : Vsri) (y : Int) (h : y < v.max) : v.update p y = .ok (v, false) := by
  exact if_pos (by exact h)

example : Vsri.update .debug { minTs := 5, maxTs := 20, segs := [⟨15, 0, 5, 2⟩] } 19 =
    .ok ({ minTs := 5, maxTs := 20, segs := [⟨15, 0, 5, 2⟩] }, false) := by decide
example : Vsri.update .debug { minTs := 5, maxTs := 20, segs := [⟨15, 0, 5, 2⟩] } 20 =
    .ok ({ minTs := 5, maxTs := 20, segs := [⟨15, 0, 5, 2⟩, ⟨0, 2, 20, 1⟩] }, true) := by decide

/-- What every reachable index satisfies, whatever the history. -/
structure WeakInv (v : Vsri) : Prop where
  max_range : 0 ≤ v.maxTs ∧ v.maxTs < 2147483648
  m : 0 ≤ v.current.m
  y0 : 0 ≤ v.current.y0 ∧ v.current.y0 ≤ v.maxTs

theorem update_weak {p : Profile} {v : Vsri} (W : WeakInv v) {y : Int} (hy : InI32 y) :
    (∀ v' r, v.update p y = .ok (v', r) → WeakInv v') ∧ (p = .release → ∃ v' r, v.update p y = .ok (v', r)) := by
  have hyI := hy
  unfold InI32 at hy
  by_cases hlt : y < v.maxTs
  · have e : v.update p y = .ok (v, false) := if_pos hlt
    rw [e]
    refine ⟨fun v' r h => ?_, fun _ => ⟨_, _, rfl⟩⟩
    obtain ⟨rfl, rfl⟩ := Prod.mk.inj (Except.ok.inj h); exact W
  have hge : v.maxTs ≤ y := by omega
  have hy0 : 0 ≤ y := by have := W.max_range; omega
  have fakeW : ∀ (a : Int) (w : Vsri) (s : Seg), Vsri.fakeSegment p w y = .ok s → WeakInv { minTs := a, maxTs := y, segs := v.segs ++ [s] } := by
    intro a w s hs
    unfold Vsri.fakeSegment at hs
    cases hx : i32op p (w.current.x0 + w.current.n) with
    | error e => rw [hx] at hs; cases hs
    | ok x =>
      rw [hx] at hs
      obtain rfl := Except.ok.inj hs
      refine ⟨⟨hy0, hy.2⟩, ?_, ?_⟩ <;> rw [current_snoc]
      exact ⟨hy0, le_refl _⟩
  have fakeR : ∀ (w : Vsri), p = .release → ∃ s, Vsri.fakeSegment p w y = .ok s := by
    rintro w rfl
    obtain ⟨x, hx⟩ := i32op_release (w.current.x0 + w.current.n)
    unfold Vsri.fakeSegment; rw [hx]; exact ⟨_, rfl⟩
  unfold Vsri.update
  rw [if_neg hlt]
  dsimp only
  by_cases hseg : v.segs.length = 0
  · rw [if_pos hseg]
    constructor
    · intro v' r h
      cases hs : Vsri.fakeSegment p { minTs := y, maxTs := y, segs := v.segs } y with
      | error e => rw [hs] at h; cases h
      | ok s =>
        rw [hs] at h
        obtain ⟨rfl, rfl⟩ := Prod.mk.inj (Except.ok.inj h)
        exact fakeW _ _ _ hs
    · intro hp
      obtain ⟨s, hs⟩ := fakeR { minTs := y, maxTs := y, segs := v.segs } hp
      rw [hs]; exact ⟨_, _, rfl⟩
  · rw [if_neg hseg]
    have hne : v.segs ≠ [] := by intro h; rw [h] at hseg; exact hseg rfl
    obtain ⟨ss, s0, hs0⟩ : ∃ ss s, v.segs = ss ++ [s] := ⟨_, _, (List.dropLast_concat_getLast hne).symm⟩
    have hcur : ∀ a b, ({ minTs := a, maxTs := b, segs := v.segs } : Vsri).current = v.current := fun _ _ => rfl
    have hset : ∀ s : Seg, v.segs.set (v.segs.length - 1) s = ss ++ [s] := by intro s; rw [hs0]; simp
    have hcs : v.current = s0 := by unfold Vsri.current; simp [hs0]
    by_cases hfake : ({ minTs := v.minTs, maxTs := y, segs := v.segs } : Vsri).isFake = true
    · rw [if_pos hfake]
      have hm0 : v.current.m = 0 := by unfold Vsri.isFake at hfake; rw [hcur] at hfake; simpa using hfake
      have hgen : Vsri.generateSegment p { minTs := v.minTs, maxTs := y, segs := v.segs } y =
          .ok ⟨y - v.current.y0, v.current.x0, v.current.y0, 2⟩ := by
        unfold Vsri.generateSegment
        have := W.y0
        rw [hcur, if_neg (by omega), i32op_in (by unfold InI32; omega)]
        rfl
      rw [hgen]
      simp only [bind, Except.bind, hset]
      refine ⟨fun v' r h => ?_, fun _ => ⟨_, _, rfl⟩⟩
      obtain ⟨rfl, rfl⟩ := Prod.mk.inj (Except.ok.inj h)
      have := W.y0
      refine ⟨⟨hy0, hy.2⟩, ?_, ?_⟩ <;> rw [current_snoc] <;> dsimp only <;> omega
    · rw [if_neg hfake]
      have hm : 0 < v.current.m := by
        have := W.m
        rcases Int.lt_or_eq_of_le this with h | h
        · exact h
        · exfalso; apply hfake; unfold Vsri.isFake; rw [hcur, ← h]; rfl
      constructor
      · intro v' r h
        cases hf : Vsri.fitsSegment p { minTs := v.minTs, maxTs := y, segs := v.segs } y with
        | error e => rw [hf] at h; cases h
        | ok b =>
          rw [hf] at h; simp only [bind, Except.bind] at h
          cases b with
          | true =>
            simp only [if_true] at h
            cases hs : i32op p ((Vsri.current { minTs := v.minTs, maxTs := y, segs := v.segs }).n + 1) with
            | error e => rw [hs] at h; cases h
            | ok s =>
              rw [hs] at h
              simp only [hset] at h
              obtain ⟨rfl, rfl⟩ := Prod.mk.inj (Except.ok.inj h)
              have := W.y0
              refine ⟨⟨hy0, hy.2⟩, ?_, ?_⟩ <;> rw [current_snoc] <;> dsimp only <;> rw [hcur] <;> omega
          | false =>
            simp only [Bool.false_eq_true, if_false] at h
            cases hs : Vsri.fakeSegment p { minTs := v.minTs, maxTs := y, segs := v.segs } y with
            | error e => rw [hs] at h; cases h
            | ok s =>
              rw [hs] at h
              obtain ⟨rfl, rfl⟩ := Prod.mk.inj (Except.ok.inj h)
              exact fakeW _ _ _ hs
      · intro hp
        obtain ⟨b, hb⟩ : ∃ b, Vsri.fitsSegment p { minTs := v.minTs, maxTs := y, segs := v.segs } y = .ok b := by
          subst hp; exact fits_release (by rw [hcur]; exact hm)
        rw [hb]; simp only [bind, Except.bind]
        cases b with
        | true =>
          simp only [if_true]
          subst hp
          obtain ⟨n, hn⟩ := i32op_release ((Vsri.current { minTs := v.minTs, maxTs := y, segs := v.segs }).n + 1)
          rw [hn]; exact ⟨_, _, rfl⟩
        | false =>
          simp only [Bool.false_eq_true, if_false]
          obtain ⟨s, hs⟩ := fakeR { minTs := v.minTs, maxTs := y, segs := v.segs } hp
          rw [hs]; exact ⟨_, _, rfl⟩

/-- C40: in a release build no history of `i32` points, increasing or not, makes the index panic. -/
theorem C40_release_never_panics (h : List Int) (hr : ∀ y ∈ h, InI32 y) : ∃ v rs, Vsri.run .release .new h = .ok (v, rs) := by
  have key : ∀ (h : List Int) (v : Vsri), WeakInv v → (∀ y ∈ h, InI32 y) → ∃ w rs, Vsri.run .release v h = .ok (w, rs) := by
    intro h
    induction h with
    | nil => intro v _ _; exact ⟨v, [], rfl⟩
    | cons y ys ih =>
      intro v W hr
      obtain ⟨a, b⟩ := update_weak (p := .release) W (hr y (by simp))
      obtain ⟨v', r, hu⟩ := b rfl
      obtain ⟨w, rs, hw⟩ := ih v' (a _ _ hu) (fun z hz => hr z (by simp [hz]))
      refine ⟨w, r :: rs, ?_⟩
      unfold Vsri.run; rw [hu]; simp only [bind, Except.bind]; rw [hw]
  exact key h .new ⟨by decide, by decide, by decide⟩ hr

/-! ### C41 -/

theorem update_minTs {p : Profile} {v v' : Vsri} {y : Int} (h : v.update p y = .ok (v', true)) :
    v'.minTs = (if v.segs = [] then y else v.minTs) ∧ v'.segs ≠ [] := by
  unfold Vsri.update at h
  split at h
  · cases h
  · dsimp only at h
    have hl : v.segs.length = 0 ↔ v.segs = [] := List.length_eq_zero_iff
    have key : ∀ {w : Vsri}, w.minTs = (if v.segs = [] then y else v.minTs) → w.segs ≠ [] →
        (Except.ok (w, true) : Except Panic (Vsri × Bool)) = .ok (v', true) →
        v'.minTs = (if v.segs = [] then y else v.minTs) ∧ v'.segs ≠ [] := by
      intro w h1 h2 he
      obtain ⟨rfl, -⟩ := Prod.mk.inj (Except.ok.inj he); exact ⟨h1, h2⟩
    split at h
    · rename_i hs0
      cases hs : Vsri.fakeSegment p { minTs := y, maxTs := y, segs := v.segs } y with
      | error e => rw [hs] at h; cases h
      | ok s => rw [hs] at h; exact key (by rw [if_pos (hl.1 hs0)]) (by simp) h
    · rename_i hs0
      have hne : ¬ v.segs = [] := fun e => hs0 (hl.2 e)
      split at h
      · cases hs : Vsri.generateSegment p { minTs := v.minTs, maxTs := y, segs := v.segs } y with
        | error e => rw [hs] at h; cases h
        | ok s => rw [hs] at h; exact key (by rw [if_neg hne]) (by simpa using hne) h
      · cases hf : Vsri.fitsSegment p { minTs := v.minTs, maxTs := y, segs := v.segs } y with
        | error e => rw [hf] at h; cases h
        | ok b =>
          rw [hf] at h; simp only [bind, Except.bind] at h
          cases b with
          | true =>
            simp only [if_true] at h
            cases hs : i32op p ((Vsri.current { minTs := v.minTs, maxTs := y, segs := v.segs }).n + 1) with
            | error e => rw [hs] at h; cases h
            | ok s => rw [hs] at h; exact key (by rw [if_neg hne]) (by simpa using hne) h
          | false =>
            simp only [Bool.false_eq_true, if_false] at h
            cases hs : Vsri.fakeSegment p { minTs := v.minTs, maxTs := y, segs := v.segs } y with
            | error e => rw [hs] at h; cases h
            | ok s => rw [hs] at h; exact key (by rw [if_neg hne]) (by simp) h

theorem run_history {p : Profile} : ∀ (ys : List Int) (v w : Vsri) (rs : List Bool) (acc : List Int),
    v.minTs = acc.headD 0 → v.maxTs = acc.getLastD 0 → (v.segs = [] ↔ acc = []) → acc.Pairwise (· ≤ ·) →
    Vsri.run p v ys = .ok (w, rs) →
    rs.length = ys.length ∧ w.minTs = (acc ++ acceptedPoints ys rs).headD 0 ∧ w.maxTs = (acc ++ acceptedPoints ys rs).getLastD 0 ∧
      (acc ++ acceptedPoints ys rs).Pairwise (· ≤ ·) := by
  intro ys
  induction ys with
  | nil =>
    intro v w rs acc h1 h2 _ h4 hr
    obtain ⟨rfl, rfl⟩ := Prod.mk.inj (Except.ok.inj hr)
    simp only [acceptedPoints, List.append_nil]
    exact ⟨rfl, h1, h2, h4⟩
  | cons y ys ih =>
    intro v w rs acc h1 h2 h3 h4 hr
    unfold Vsri.run at hr
    cases hu : v.update p y with
    | error e => rw [hu] at hr; cases hr
    | ok q =>
      obtain ⟨v', r⟩ := q
      rw [hu] at hr; simp only [bind, Except.bind] at hr
      cases hw : Vsri.run p v' ys with
      | error e => rw [hw] at hr; cases hr
      | ok q =>
        obtain ⟨w', rs'⟩ := q
        rw [hw] at hr
        obtain ⟨rfl, rfl⟩ := Prod.mk.inj (Except.ok.inj hr)
        obtain ⟨c1, c2, c3⟩ := C40_update p v v' y r hu
        cases r with
        | false =>
          obtain rfl := c2 rfl
          have := ih v' w' rs' acc h1 h2 h3 h4 hw
          exact ⟨by simp [this.1], by simpa [acceptedPoints] using this.2⟩
        | true =>
          have hmax : v'.maxTs = y := c3 rfl
          obtain ⟨hmin, hne⟩ := update_minTs hu
          have hge : v.maxTs ≤ y := by
            by_contra hh
            have := c1.2 (by unfold Vsri.max; omega)
            cases this
          have := ih v' w' rs' (acc ++ [y]) (by
              rw [hmin]
              cases acc with
              | nil => rw [if_pos (h3.2 rfl)]; rfl
              | cons a l => rw [if_neg (by intro e; have := h3.1 e; cases this)]; simpa using h1)
            (by rw [hmax]; simp) (by constructor
                                     · intro e; exact absurd e hne
                                     · intro e; simp at e)
            (by
              rw [List.pairwise_append]
              refine ⟨h4, by simp, ?_⟩
              intro a ha b hb
              obtain rfl := List.mem_singleton.1 hb
              have hne' : acc ≠ [] := List.ne_nil_of_mem ha
              have e : acc.getLastD 0 = acc.getLast hne' := by
                rw [List.getLastD_eq_getLast?, List.getLast?_eq_some_getLast hne']; rfl
              rw [h2, e] at hge
              rw [← List.dropLast_concat_getLast hne'] at ha h4
              rcases List.mem_append.1 ha with ha | ha
              · exact le_trans ((List.pairwise_append.1 h4).2.2 a ha _ (List.mem_singleton_self _)) hge
              · rw [List.mem_singleton.1 ha]; exact hge) hw
          have e : ∀ l : List Int, acc ++ [y] ++ l = acc ++ y :: l := by intro l; simp
          rw [e] at this
          exact ⟨by simp [this.1], by simpa [acceptedPoints] using this.2⟩

/-- C41: after any history of calls on a new index, `min()` is the first and `max()` the last accepted point, and the accepted points never
go back (0 for both when nothing was accepted). -/
theorem C41_extremes (p : Profile) (h : List Int) (v : Vsri) (rs : List Bool) (hr : Vsri.run p .new h = .ok (v, rs)) :
    rs.length = h.length ∧ v.min = (acceptedPoints h rs).headD 0 ∧ v.max = (acceptedPoints h rs).getLastD 0 ∧
      (acceptedPoints h rs).Pairwise (· ≤ ·) := by
  have := run_history (p := p) h .new v rs [] rfl rfl ⟨fun _ => rfl, fun _ => rfl⟩ List.Pairwise.nil hr
  rw [List.nil_append] at this
  exact this

/-- C41: which calls are accepted: exactly those not before everything accepted so far (and not before 0). -/
theorem C41_accepts (p : Profile) (h : List Int) (y : Int) (v v' : Vsri) (rs : List Bool) (r : Bool)
    (hr : Vsri.run p .new h = .ok (v, rs)) (hu : v.update p y = .ok (v', r)) :
    r = true ↔ 0 ≤ y ∧ ∀ z ∈ acceptedPoints h rs, z ≤ y := by
  obtain ⟨-, -, hmax, hs⟩ := C41_extremes p h v rs hr
  obtain ⟨c1, -, -⟩ := C40_update p v v' y r hu
  have hpos : ∀ (h : List Int) (v w : Vsri) (rs : List Bool), 0 ≤ v.maxTs → Vsri.run p v h = .ok (w, rs) →
      ∀ z ∈ acceptedPoints h rs, 0 ≤ z := by
    intro h
    induction h with
    | nil => intro v w rs _ _ z hz; simp [acceptedPoints] at hz
    | cons a ys ih =>
      intro v w rs h0 hr z hz
      unfold Vsri.run at hr
      cases hu : v.update p a with
      | error e => rw [hu] at hr; cases hr
      | ok q =>
        obtain ⟨v', r⟩ := q
        rw [hu] at hr; simp only [bind, Except.bind] at hr
        cases hw : Vsri.run p v' ys with
        | error e => rw [hw] at hr; cases hr
        | ok q =>
          obtain ⟨w', rs'⟩ := q
          rw [hw] at hr
          obtain ⟨rfl, rfl⟩ := Prod.mk.inj (Except.ok.inj hr)
          obtain ⟨c1, c2, c3⟩ := C40_update p v v' a r hu
          cases r with
          | false =>
            obtain rfl := c2 rfl
            exact ih v' w' rs' h0 hw z (by simpa [acceptedPoints] using hz)
          | true =>
            have hmax : v'.maxTs = a := c3 rfl
            have hge : v.maxTs ≤ a := by
              by_contra hh
              have := c1.2 (by unfold Vsri.max; omega)
              cases this
            simp only [acceptedPoints, if_true, List.mem_cons] at hz
            rcases hz with rfl | hz
            · omega
            · exact ih v' w' rs' (by omega) hw z hz
  have hp := hpos h .new v rs (by decide) hr
  have hiff : r = true ↔ v.max ≤ y := by
    cases r with
    | true =>
      refine ⟨fun _ => ?_, fun _ => rfl⟩
      by_contra hh
      have := c1.2 (by omega)
      cases this
    | false =>
      have := c1.1 rfl
      constructor
      · intro h; cases h
      · intro h; omega
  rw [hiff, hmax]
  generalize hl : acceptedPoints h rs = l at *
  by_cases hne : l = []
  · subst hne; simp
  · have e : l.getLastD 0 = l.getLast hne := by rw [List.getLastD_eq_getLast?, List.getLast?_eq_some_getLast hne]; rfl
    rw [e]
    constructor
    · intro hle
      refine ⟨le_trans (hp _ (List.getLast_mem hne)) hle, fun z hz => ?_⟩
      rw [← List.dropLast_concat_getLast hne] at hz hs
      rcases List.mem_append.1 hz with hz | hz
      · exact le_trans ((List.pairwise_append.1 hs).2.2 z hz _ (List.mem_singleton_self _)) hle
      · rw [List.mem_singleton.1 hz]; exact hle
    · rintro ⟨-, h2⟩; exact h2 _ (List.getLast_mem hne)

example : okAnd (Vsri.run .debug .new [-3, 7, 5, 7, 9]) (fun q => q.1.min = 7 ∧ q.1.max = 9 ∧
    q.2 = [false, true, false, true, true] ∧ acceptedPoints [-3, 7, 5, 7, 9] q.2 = [7, 7, 9]) = true := by decide

/-! ### C42 -/

theorem Desc_contiguous : ∀ {segs : List Seg} {x : Int} {h : List Int}, Desc x segs h → Contiguous x segs (x + h.length) := by
  intro segs
  induction segs with
  | nil => intro x h d; obtain rfl : h = [] := d; simp [Contiguous]
  | cons s ss ih =>
    rintro x h ⟨blk, rest, rfl, ok, d⟩
    refine ⟨ok.x0, by rw [ok.n]; have := ok.pos; omega, ?_⟩
    have := ih d
    have e : x + ((blk ++ rest).length : Int) = x + blk.length + rest.length := by simp; ring
    rw [e, ok.n]; exact this

theorem Inv_count {p : Profile} {v : Vsri} {h : List Int} (I : Inv v h) : v.sampleCount p = .ok (h.length : Int) := by
  unfold Vsri.sampleCount
  have hf := I.hist.few
  by_cases hseg : v.segs = []
  · have hh : h = [] := by have := I.desc; rw [hseg] at this; exact this
    subst hh
    unfold Vsri.current; rw [hseg]
    exact i32op_in (by decide)
  · obtain ⟨ss, s, g, blk, hs, rfl, d1, ok, hfull⟩ := I.last hseg
    have hcur : v.current = s := by unfold Vsri.current; simp [hs]
    rw [hcur]
    have e : s.n + s.x0 = ((g ++ blk).length : Int) := by rw [ok.n, ok.x0]; simp; omega
    rw [e]
    exact i32op_in (by unfold InI32; omega)

/-- C42 for strictly increasing histories: every point is accepted, the sample count is the number of points and the segments number the
samples 0, 1, …, count-1 contiguously.  For histories with repeated points it is false
(`C42_refuted_duplicates`). -/
theorem C42_count (p : Profile) (h : List Int) (H : StrictHistory h) (v : Vsri) (rs : List Bool)
    (hr : Vsri.run p .new h = .ok (v, rs)) :
    rs = List.replicate h.length true ∧ v.sampleCount p = .ok (h.length : Int) ∧ Contiguous 0 v.segs h.length := by
  obtain ⟨I, rfl⟩ := run_inv H hr
  exact ⟨rfl, Inv_count I, by simpa using Desc_contiguous I.desc⟩

/-- The condition "the run did not panic" of the theorems on strictly increasing histories is always met in release builds. -/
theorem C42_release_total (h : List Int) (H : StrictHistory h) :
    ∃ v, Vsri.run .release .new h = .ok (v, List.replicate h.length true) := by
  rcases run_strict .release H with ⟨v, h1, _⟩ | ⟨hp, _⟩
  · exact ⟨v, h1⟩
  · cases hp

/-- C42 refuted: the same timestamp given `k ≥ 2` times is accepted `k` times and counted twice. -/
theorem C42_refuted_duplicates (p : Profile) (y : Int) (hy : 0 ≤ y ∧ y < 2147483648) (k : Nat) (hk : 2 ≤ k) :
    ∃ v, Vsri.run p .new (List.replicate k y) = .ok (v, List.replicate k true) ∧ v.sampleCount p = .ok 2 := by
  have step : ∀ n : Nat, Vsri.run p { minTs := y, maxTs := y, segs := [⟨0, 0, y, 2⟩] } (List.replicate n y) =
      .ok ({ minTs := y, maxTs := y, segs := [⟨0, 0, y, 2⟩] }, List.replicate n true) := by
    intro n
    induction n with
    | zero => rfl
    | succ n ih =>
      rw [List.replicate_succ, List.replicate_succ]
      unfold Vsri.run
      have hu : Vsri.update p { minTs := y, maxTs := y, segs := [⟨0, 0, y, 2⟩] } y =
          .ok ({ minTs := y, maxTs := y, segs := [⟨0, 0, y, 2⟩] }, true) := by
        simp [Vsri.update, Vsri.isFake, Vsri.current, Vsri.generateSegment, i32op, InI32, bind, Except.bind]
      rw [hu]; simp only [bind, Except.bind]; rw [ih]
  obtain ⟨n, rfl⟩ : ∃ n, k = n + 2 := ⟨k - 2, by omega⟩
  refine ⟨{ minTs := y, maxTs := y, segs := [⟨0, 0, y, 2⟩] }, ?_, ?_⟩
  · rw [List.replicate_succ, List.replicate_succ, List.replicate_succ, List.replicate_succ]
    unfold Vsri.run
    have hu1 : Vsri.update p .new y = .ok ({ minTs := y, maxTs := y, segs := [⟨0, 0, y, 1⟩] }, true) := by
      have : ¬ y < 0 := by omega
      simp [Vsri.update, Vsri.new, Vsri.current, Vsri.fakeSegment, i32op, InI32, bind, Except.bind, this]
    have hu2 : Vsri.update p { minTs := y, maxTs := y, segs := [⟨0, 0, y, 1⟩] } y =
        .ok ({ minTs := y, maxTs := y, segs := [⟨0, 0, y, 2⟩] }, true) := by
      simp [Vsri.update, Vsri.isFake, Vsri.current, Vsri.generateSegment, i32op, InI32, bind, Except.bind]
    rw [hu1]; simp only [bind, Except.bind]
    unfold Vsri.run
    rw [hu2]; simp only [bind, Except.bind]
    rw [step]
  · exact i32op_in (a := 2 + 0) (by decide)

example : StrictHistory [55745, 55760, 55775, 58505, 58520] := ⟨by decide, by decide, by decide⟩
example : Vsri.run .debug .new [55745, 55760, 55775, 58505, 58520] =
    .ok ({ minTs := 55745, maxTs := 58520, segs := [⟨15, 0, 55745, 3⟩, ⟨15, 3, 58505, 2⟩] }, [true, true, true, true, true]) := by decide

/-! ### C43 -/

theorem mapM_ok {α β : Type} {f : α → Except Panic β} {g : α → β} : ∀ {l : List α}, (∀ a ∈ l, f a = .ok (g a)) → l.mapM f = .ok (l.map g) := by
  intro l
  induction l with
  | nil => intro _; rfl
  | cons a l ih =>
    intro h
    rw [List.mapM_cons, h a (by simp)]
    simp only [bind, Except.bind]
    rw [ih (fun b hb => h b (by simp [hb]))]
    rfl

/-- The timestamps a segment stands for. -/
def Seg.times (s : Seg) : List Int := (List.range s.n.toNat).map fun (f : Nat) => (f : Int) * s.m + s.y0

theorem segTimes_ok {p : Profile} {s : Seg} {x : Int} {blk : List Int} (ok : SegOK s x blk) (hr : ∀ y ∈ blk, 0 ≤ y ∧ y < 2147483648) :
    segTimes p s = .ok s.times := by
  unfold segTimes Seg.times
  have h0 := hr _ (List.getElem_mem ok.pos)
  rw [ok.first] at h0
  apply mapM_ok
  intro f hf
  have hf' : f < blk.length := by have := List.mem_range.1 hf; rw [ok.n] at this; simpa using this
  have h1 := (ok.near f hf').1
  have h2 := hr _ (List.getElem_mem hf')
  have h3 : 0 ≤ s.m * f := Int.mul_nonneg ok.m_nonneg (Int.natCast_nonneg f)
  rw [Int.mul_comm] at h1 h3
  rw [i32op_in (a := (f : Int) * s.m) (by unfold InI32; omega)]
  simp only [bind, Except.bind]
  rw [i32op_in (by unfold InI32; omega)]

theorem Desc_times {p : Profile} : ∀ {segs : List Seg} {x : Int} {h : List Int}, Desc x segs h → (∀ y ∈ h, 0 ≤ y ∧ y < 2147483648) →
    segs.mapM (segTimes p) = .ok (segs.map Seg.times) ∧ (segs.map Seg.times).flatten.length = h.length ∧
      ∀ (i : Nat) (h1 : i < (segs.map Seg.times).flatten.length) (h2 : i < h.length),
        (segs.map Seg.times).flatten[i] ≤ h[i] ∧
          ∃ s ∈ segs, s.Has (x + i) ∧ (segs.map Seg.times).flatten[i] = s.y0 + s.m * (x + i - s.x0) ∧
            (h[i] = (segs.map Seg.times).flatten[i] ∨ h[i] < (segs.map Seg.times).flatten[i] + s.m) := by
  intro segs
  induction segs with
  | nil =>
    intro x h d hr
    obtain rfl : h = [] := d
    exact ⟨rfl, rfl, fun i h1 h2 => absurd h2 (by simp)⟩
  | cons s ss ih =>
    rintro x h ⟨blk, rest, rfl, ok, d⟩ hr
    obtain ⟨i1, i2, i3⟩ := ih d (fun y hy => hr y (List.mem_append_right _ hy))
    have hst := segTimes_ok (p := p) ok (fun y hy => hr y (List.mem_append_left _ hy))
    have hlen : s.times.length = blk.length := by unfold Seg.times; rw [ok.n]; simp
    refine ⟨?_, ?_, ?_⟩
    · rw [List.mapM_cons, hst]
      simp only [bind, Except.bind]
      rw [i1]; rfl
    · rw [List.map_cons, List.flatten_cons, List.length_append, List.length_append, hlen, i2]
    · intro i h1 h2
      simp only [List.map_cons, List.flatten_cons]
      by_cases hi : i < blk.length
      · have e1 : (s.times ++ (ss.map Seg.times).flatten)[i]'(by rw [List.map_cons, List.flatten_cons] at h1; exact h1) = (i : Int) * s.m + s.y0 := by
          rw [List.getElem_append_left (by omega)]
          unfold Seg.times; simp
        have e2 : (blk ++ rest)[i] = blk[i] := List.getElem_append_left hi
        rw [e1, e2]
        have nr := ok.near i hi
        have e3 : (i : Int) * s.m = s.m * i := Int.mul_comm _ _
        have e4 : s.m * ((i : Int) + 1) = s.m * i + s.m := by ring
        rw [e4] at nr
        refine ⟨by omega, s, by simp, ?_, ?_, ?_⟩
        · unfold Seg.Has; rw [ok.x0, ok.n]; omega
        · rw [ok.x0]
          have : x + (i : Int) - x = i := by ring
          rw [this]; omega
        · rcases ok.kind with ⟨k1, k2⟩ | ⟨k1, k2⟩
          · left
            have hi0 : i = 0 := by omega
            subst hi0
            rw [ok.first]; simp
          · right
            have := nr.2 k2
            omega
      · have hi' : blk.length ≤ i := by omega
        have hj : i - blk.length < rest.length := by simp at h2; omega
        have hj1 : i - blk.length < (ss.map Seg.times).flatten.length := by omega
        have e1 : (s.times ++ (ss.map Seg.times).flatten)[i]'(by rw [List.map_cons, List.flatten_cons] at h1; exact h1) =
            (ss.map Seg.times).flatten[i - blk.length] := by
          rw [List.getElem_append_right (by omega)]
          simp only [hlen]
        have e2 : (blk ++ rest)[i] = rest[i - blk.length] := List.getElem_append_right hi'
        rw [e1, e2]
        obtain ⟨j1, t, j2, j3, j4, j5⟩ := i3 (i - blk.length) hj1 hj
        have ex : x + (blk.length : Int) + ((i - blk.length : Nat) : Int) = x + i := by omega
        rw [ex] at j3 j4
        exact ⟨j1, t, by simp [j2], j3, j4, j5⟩

/-- C43: after any strictly increasing history `get_all_timestamps` returns one timestamp per point; each is not later than the real one and
less than the sampling interval of its segment earlier (in particular exact for a segment of one sample). -/
theorem C43_timestamps (p : Profile) (h : List Int) (H : StrictHistory h) (v : Vsri) (rs : List Bool)
    (hr : Vsri.run p .new h = .ok (v, rs)) :
    ∃ ts, v.allTimestamps p = .ok ts ∧ ts.length = h.length ∧ ∀ (i : Nat) (h1 : i < ts.length) (h2 : i < h.length),
      ts[i] ≤ h[i] ∧ ∃ s ∈ v.segs, s.Has i ∧ (h[i] = ts[i] ∨ h[i] < ts[i] + s.m) := by
  obtain ⟨I, -⟩ := run_inv H hr
  obtain ⟨t1, t2, t3⟩ := Desc_times (p := p) I.desc H.range
  refine ⟨_, ?_, t2, fun i h1 h2 => ?_⟩
  · unfold allTimestamps; rw [t1]; rfl
  · obtain ⟨a, s, b, c, -, e⟩ := t3 i h1 h2
    rw [Int.zero_add] at c
    exact ⟨a, s, b, c, e⟩

/-- The reconstruction really can be late by almost an interval: 0, 10, 29 comes back as 0, 10, 20. -/
example : okAnd (Vsri.run .debug .new [0, 10, 29]) (fun q => q.1.allTimestamps .debug = .ok [0, 10, 20]) = true := by decide

/-! ### C50 -/

theorem DayHistory.strict {h : List Int} (H : DayHistory h) : StrictHistory h where
  increasing := H.increasing
  range := fun y hy => by have := H.range y hy; omega
  few := by
    by_contra hc
    have := idx_le H.increasing (fun z hz => (H.range z hz).1) (h.length - 1) (by omega)
    have h2 := H.range _ (List.getElem_mem (l := h) (n := h.length - 1) (by omega))
    omega

/-- C50: indexing a strictly increasing history of second-of-day timestamps never overflows: a debug build, where every overflow panics,
accepts all points and computes the count and the timestamps, and a release build computes the same index. -/
theorem C50_day_no_overflow (h : List Int) (H : DayHistory h) :
    ∃ v, Vsri.run .debug .new h = .ok (v, List.replicate h.length true) ∧
      Vsri.run .release .new h = .ok (v, List.replicate h.length true) ∧
      v.sampleCount .debug = .ok (h.length : Int) ∧ (∃ ts, v.allTimestamps .debug = .ok ts ∧ v.allTimestamps .release = .ok ts) := by
  rcases run_strict .debug H.strict with ⟨v, h1, I⟩ | ⟨_, ⟨y, hy, hb⟩, _⟩
  · refine ⟨v, h1, ?_, Inv_count I, ?_⟩
    · have mono : ∀ (ys : List Int) (v w : Vsri) (rs : List Bool), Vsri.run .debug v ys = .ok (w, rs) → Vsri.run .release v ys = .ok (w, rs) := by
        have op : ∀ {a b : Int}, i32op .debug a = .ok b → i32op .release a = .ok b := by
          intro a b h
          obtain ⟨h1, rfl⟩ := i32op_debug h
          exact i32op_in h1
        have fake : ∀ {v : Vsri} {y : Int} {s : Seg}, v.fakeSegment .debug y = .ok s → v.fakeSegment .release y = .ok s := by
          intro v y s h
          unfold Vsri.fakeSegment at h ⊢
          cases hx : i32op .debug (v.current.x0 + v.current.n) with
          | error e => rw [hx] at h; cases h
          | ok x => rw [hx] at h; rw [op hx]; exact h
        have gen : ∀ {v : Vsri} {y : Int} {s : Seg}, v.generateSegment .debug y = .ok s → v.generateSegment .release y = .ok s := by
          intro v y s h
          unfold Vsri.generateSegment at h ⊢
          split
          · rename_i hc; rw [if_pos hc] at h; exact h
          · rename_i hc; rw [if_neg hc] at h
            cases hx : i32op .debug (y - v.current.y0) with
            | error e => rw [hx] at h; cases h
            | ok x => rw [hx] at h; rw [op hx]; exact h
        have fits : ∀ {v : Vsri} {y : Int} {s : Bool}, v.fitsSegment .debug y = .ok s → v.fitsSegment .release y = .ok s := by
          intro v y s h
          unfold Vsri.fitsSegment Vsri.calculateB at h ⊢
          cases hx : i32op .debug (v.current.m * v.current.x0) with
          | error e => rw [hx] at h; cases h
          | ok t =>
            rw [hx] at h; rw [op hx]; simp only [bind, Except.bind] at h ⊢
            cases hx : i32op .debug (v.current.y0 - t) with
            | error e => rw [hx] at h; cases h
            | ok b =>
              rw [hx] at h; rw [op hx]; simp only at h ⊢
              cases hx : i32op .debug (y - b) with
              | error e => rw [hx] at h; cases h
              | ok d =>
                rw [hx] at h; rw [op hx]; simp only at h ⊢
                cases hx : i32div d v.current.m with
                | error e => rw [hx] at h; cases h
                | ok q =>
                  rw [hx] at h; simp only at h ⊢
                  cases hx : i32op .debug (v.current.n + v.current.x0) with
                  | error e => rw [hx] at h; cases h
                  | ok c => rw [hx] at h; rw [op hx]; exact h
        have upd : ∀ {v w : Vsri} {y : Int} {r : Bool}, v.update .debug y = .ok (w, r) → v.update .release y = .ok (w, r) := by
          intro v w y r h
          unfold Vsri.update at h ⊢
          split
          · rename_i hc; rw [if_pos hc] at h; exact h
          · rename_i hc; rw [if_neg hc] at h
            dsimp only at h ⊢
            split
            · rename_i hc; rw [if_pos hc] at h
              cases hs : Vsri.fakeSegment .debug { minTs := y, maxTs := y, segs := v.segs } y with
              | error e => rw [hs] at h; cases h
              | ok s => rw [hs] at h; rw [fake hs]; exact h
            · rename_i hc; rw [if_neg hc] at h
              split
              · rename_i hc; rw [if_pos hc] at h
                cases hs : Vsri.generateSegment .debug { minTs := v.minTs, maxTs := y, segs := v.segs } y with
                | error e => rw [hs] at h; cases h
                | ok s => rw [hs] at h; rw [gen hs]; exact h
              · rename_i hc; rw [if_neg hc] at h
                cases hf : Vsri.fitsSegment .debug { minTs := v.minTs, maxTs := y, segs := v.segs } y with
                | error e => rw [hf] at h; cases h
                | ok b =>
                  rw [hf] at h; rw [fits hf]; simp only [bind, Except.bind] at h ⊢
                  cases b with
                  | true =>
                    simp only [if_true] at h ⊢
                    cases hs : i32op .debug ((Vsri.current { minTs := v.minTs, maxTs := y, segs := v.segs }).n + 1) with
                    | error e => rw [hs] at h; cases h
                    | ok s => rw [hs] at h; rw [op hs]; exact h
                  | false =>
                    simp only [Bool.false_eq_true, if_false] at h ⊢
                    cases hs : Vsri.fakeSegment .debug { minTs := v.minTs, maxTs := y, segs := v.segs } y with
                    | error e => rw [hs] at h; cases h
                    | ok s => rw [hs] at h; rw [fake hs]; exact h
        intro ys
        induction ys with
        | nil => intro v w rs h; exact h
        | cons y ys ih =>
          intro v w rs h
          unfold Vsri.run at h ⊢
          cases hu : v.update .debug y with
          | error e => rw [hu] at h; cases h
          | ok q =>
            obtain ⟨v', r⟩ := q
            rw [hu] at h; rw [upd hu]; simp only [bind, Except.bind] at h ⊢
            cases hw : Vsri.run .debug v' ys with
            | error e => rw [hw] at h; cases h
            | ok q => obtain ⟨a, b⟩ := q; rw [hw] at h; rw [ih _ _ _ hw]; exact h
      exact mono _ _ _ _ h1
    · obtain ⟨t1, -⟩ := Desc_times (p := .debug) I.desc H.strict.range
      obtain ⟨t2, -⟩ := Desc_times (p := .release) I.desc H.strict.range
      refine ⟨(v.segs.map Seg.times).flatten, ?_, ?_⟩
      · unfold allTimestamps; rw [t1]; rfl
      · unfold allTimestamps; rw [t2]; rfl
  · have := H.range y hy; omega

/-- C50 does not extend to days with repeated timestamps: a debug build panics with an overflow on 0, 1, 1, 2, 2, …, 43000, 43000, 86000,
86001, all of them second-of-day timestamps in non-decreasing order. -/
theorem C50_refuted_duplicates :
    ∃ h : List Int, h.Pairwise (· ≤ ·) ∧ (∀ y ∈ h, 0 ≤ y ∧ y < 86400) ∧ Vsri.run .debug .new h = .error .overflow := by
  let stair : Nat → List Int := fun k => (List.range k).flatMap fun (i : Nat) => [(i : Int), (i : Int) + 1]
  have run_append : ∀ (a b : List Int) (v w : Vsri) (rs : List Bool), Vsri.run .debug v a = .ok (w, rs) → ∀ e,
      Vsri.run .debug w b = .error e → Vsri.run .debug v (a ++ b) = .error e := by
    intro a
    induction a with
    | nil => intro b v w rs h e he; obtain ⟨rfl, rfl⟩ := Prod.mk.inj (Except.ok.inj h); exact he
    | cons y ys ih =>
      intro b v w rs h e he
      unfold Vsri.run at h
      rw [List.cons_append]; unfold Vsri.run
      cases hu : v.update .debug y with
      | error e => rw [hu] at h; cases h
      | ok q =>
        obtain ⟨v', r⟩ := q
        rw [hu] at h; simp only [bind, Except.bind] at h ⊢
        cases hw : Vsri.run .debug v' ys with
        | error e => rw [hw] at h; cases h
        | ok q =>
          obtain ⟨a', b'⟩ := q; rw [hw] at h
          obtain ⟨rfl, rfl⟩ := Prod.mk.inj (Except.ok.inj h)
          rw [ih b v' a' b' hw e he]
  have run_append2 : ∀ (a b : List Int) (v w u : Vsri) (rs ts : List Bool), Vsri.run .debug v a = .ok (w, rs) →
      Vsri.run .debug w b = .ok (u, ts) → Vsri.run .debug v (a ++ b) = .ok (u, rs ++ ts) := by
    intro a
    induction a with
    | nil => intro b v w u rs ts h he; obtain ⟨rfl, rfl⟩ := Prod.mk.inj (Except.ok.inj h); exact he
    | cons y ys ih =>
      intro b v w u rs ts h he
      unfold Vsri.run at h
      rw [List.cons_append]; unfold Vsri.run
      cases hu : v.update .debug y with
      | error e => rw [hu] at h; cases h
      | ok q =>
        obtain ⟨v', r⟩ := q
        rw [hu] at h; simp only [bind, Except.bind] at h ⊢
        cases hw : Vsri.run .debug v' ys with
        | error e => rw [hw] at h; cases h
        | ok q =>
          obtain ⟨a', b'⟩ := q; rw [hw] at h
          obtain ⟨rfl, rfl⟩ := Prod.mk.inj (Except.ok.inj h)
          rw [ih b v' a' u b' ts hw he]; rfl
  -- after `stair k` the last segment is the two samples k-1, k, number 2k-2 and 2k-1
  have st : ∀ k : Nat, 1 ≤ k → k ≤ 43000 → ∃ ss rs mn, Vsri.run .debug .new (stair k) =
      .ok ({ minTs := mn, maxTs := k, segs := ss ++ [⟨1, 2 * k - 2, k - 1, 2⟩] }, rs) := by
    intro k
    induction k with
    | zero => intro h; omega
    | succ k ih =>
      intro _ hk
      by_cases h0 : k = 0
      · subst h0; exact ⟨[], [true, true], 0, by decide⟩
      · obtain ⟨ss, rs, mn, hst⟩ := ih (by omega) (by omega)
        have e : stair (k + 1) = stair k ++ [(k : Int), (k : Int) + 1] := by
          simp only [stair, List.range_succ, List.flatMap_append, List.flatMap_cons, List.flatMap_nil, List.append_nil]
        refine ⟨ss ++ [⟨1, 2 * k - 2, k - 1, 2⟩], rs ++ [true, true], mn, ?_⟩
        rw [e]
        refine run_append2 _ _ _ _ _ _ _ hst ?_
        have hx : InI32 (2 * (k : Int) - 2) := by unfold InI32; omega
        have u1 : Vsri.update .debug { minTs := mn, maxTs := (k : Int), segs := ss ++ [⟨1, 2 * k - 2, k - 1, 2⟩] } k =
            .ok ({ minTs := mn, maxTs := k, segs := ss ++ [⟨1, 2 * k - 2, k - 1, 2⟩] ++ [⟨0, 2 * k, k, 1⟩] }, true) := by
          unfold Vsri.update
          rw [if_neg (by dsimp only; omega)]
          dsimp only
          rw [if_neg (by simp), if_neg (by unfold Vsri.isFake; rw [current_snoc]; simp)]
          rw [fits_exact (by rw [current_snoc]; dsimp only; omega) (by rw [current_snoc]; dsimp only; omega) (by rw [current_snoc]; dsimp only; omega)
            (by rw [current_snoc]; dsimp only; omega) (by rw [current_snoc]; dsimp only; omega) (by rw [current_snoc]; dsimp only; omega)
            (by omega) (by rw [current_snoc]; dsimp only; omega)]
          rw [current_snoc]
          simp only [bind, Except.bind]
          rw [if_neg (by simp only [decide_eq_true_iff]; omega)]
          unfold Vsri.fakeSegment
          rw [current_snoc, i32op_in (by unfold InI32; dsimp only; omega)]
          have : (2 * (k : Int) - 2 + 2) = 2 * k := by ring
          simp only [bind, Except.bind, this]
        have u2 : Vsri.update .debug { minTs := mn, maxTs := (k : Int), segs := ss ++ [⟨1, 2 * k - 2, k - 1, 2⟩] ++ [⟨0, 2 * k, k, 1⟩] } (k + 1) =
            .ok ({ minTs := mn, maxTs := k + 1, segs := ss ++ [⟨1, 2 * k - 2, k - 1, 2⟩] ++ [⟨1, 2 * k, k, 2⟩] }, true) := by
          unfold Vsri.update
          rw [if_neg (by dsimp only; omega)]
          dsimp only
          rw [if_neg (by simp), if_pos (by unfold Vsri.isFake; rw [current_snoc]; rfl)]
          unfold Vsri.generateSegment
          rw [current_snoc, if_neg (by simp), i32op_in (by unfold InI32; dsimp only; omega)]
          have : (k : Int) + 1 - k = 1 := by ring
          simp only [bind, Except.bind, this]
          simp
        unfold Vsri.run
        rw [u1]; simp only [bind, Except.bind]
        unfold Vsri.run
        rw [u2]; simp only [bind, Except.bind, Vsri.run]
        push_cast
        have e1 : 2 * ((k : Int) + 1) - 2 = 2 * k := by ring
        have e2 : (k : Int) + 1 - 1 = k := by ring
        rw [e1, e2]
  obtain ⟨ss, rs, mn, hst⟩ := st 43000 (by decide) (by decide)
  have hmem : ∀ (k : Nat) (y : Int), y ∈ stair k → 0 ≤ y ∧ y ≤ k := by
    intro k y hy
    simp only [stair, List.mem_flatMap, List.mem_range] at hy
    obtain ⟨i, hi, hy⟩ := hy
    simp at hy
    omega
  have hsorted : ∀ k, (stair k).Pairwise (· ≤ ·) := by
    intro k
    induction k with
    | zero => exact List.Pairwise.nil
    | succ k ih =>
      have e : stair (k + 1) = stair k ++ [(k : Int), (k : Int) + 1] := by
        simp only [stair, List.range_succ, List.flatMap_append, List.flatMap_cons, List.flatMap_nil, List.append_nil]
      rw [e, List.pairwise_append]
      refine ⟨ih, by simp, ?_⟩
      intro a ha b hb
      have := hmem k a ha
      simp at hb
      omega
  generalize hsg : stair 43000 = l at *
  refine ⟨l ++ [43000, 86000, 86001], ?_, ?_, ?_⟩
  · rw [List.pairwise_append]
    refine ⟨hsg ▸ hsorted 43000, by decide, ?_⟩
    intro a ha b hb
    have := hmem 43000 a (hsg ▸ ha)
    simp at hb
    omega
  · intro y hy
    rcases List.mem_append.1 hy with hy | hy
    · have := hmem 43000 y (hsg ▸ hy); omega
    · simp at hy; omega
  · refine run_append _ _ _ _ _ hst _ ?_
    have u1 : Vsri.update .debug { minTs := mn, maxTs := ((43000 : Nat) : Int), segs := ss ++ [⟨1, 2 * ((43000 : Nat) : Int) - 2, ((43000 : Nat) : Int) - 1, 2⟩] } 43000 =
        .ok ({ minTs := mn, maxTs := 43000, segs := ss ++ [⟨1, 2 * ((43000 : Nat) : Int) - 2, ((43000 : Nat) : Int) - 1, 2⟩] ++ [⟨0, 86000, 43000, 1⟩] }, true) := by
      unfold Vsri.update
      rw [if_neg (by dsimp only; omega)]
      dsimp only
      rw [if_neg (by simp), if_neg (by unfold Vsri.isFake; rw [current_snoc]; simp)]
      rw [fits_exact (by rw [current_snoc]; decide) (by rw [current_snoc]; decide) (by rw [current_snoc]; decide)
        (by rw [current_snoc]; decide) (by rw [current_snoc]; decide) (by rw [current_snoc]; decide)
        (by omega) (by rw [current_snoc]; decide)]
      rw [current_snoc]
      simp only [bind, Except.bind]
      rw [if_neg (by decide)]
      unfold Vsri.fakeSegment
      rw [current_snoc, i32op_in (by decide)]
      rfl
    unfold Vsri.run
    rw [u1]
    generalize ss ++ [(⟨1, 2 * ((43000 : Nat) : Int) - 2, ((43000 : Nat) : Int) - 1, 2⟩ : Seg)] = tt
    have u2 : Vsri.update .debug { minTs := mn, maxTs := 43000, segs := tt ++ [⟨0, 86000, 43000, 1⟩] } 86000 =
        .ok ({ minTs := mn, maxTs := 86000, segs := tt ++ [⟨43000, 86000, 43000, 2⟩] }, true) := by
      unfold Vsri.update
      rw [if_neg (by dsimp only; omega)]
      dsimp only
      rw [if_neg (by simp), if_pos (by unfold Vsri.isFake; rw [current_snoc]; rfl)]
      unfold Vsri.generateSegment
      rw [current_snoc, if_neg (by simp), i32op_in (by decide)]
      simp [bind, Except.bind]
    have u3 : Vsri.update .debug { minTs := mn, maxTs := 86000, segs := tt ++ [⟨43000, 86000, 43000, 2⟩] } 86001 = .error .overflow := by
      unfold Vsri.update
      rw [if_neg (by dsimp only; omega)]
      dsimp only
      rw [if_neg (by simp), if_neg (by unfold Vsri.isFake; rw [current_snoc]; simp)]
      unfold Vsri.fitsSegment Vsri.calculateB
      rw [current_snoc]
      rfl
    simp only [bind, Except.bind]
    unfold Vsri.run
    rw [u2]
    simp only [bind, Except.bind]
    unfold Vsri.run
    rw [u3]
    rfl

example : DayHistory [0, 15, 30, 86399] := ⟨by decide, by decide⟩

/-! ### C51 -/

/-- C51: the seconds of the day are in 0..86399 and congruent to the timestamp modulo 86400 (for every timestamp chrono can represent). -/
theorem C51_day_seconds (valid : Int → Bool) (t : Int) (hv : valid t = true) :
    ∃ s, dayElapsedSeconds valid t = .ok s ∧ 0 ≤ s ∧ s ≤ 86399 ∧ (86400 : Int) ∣ t - s := by
  unfold dayElapsedSeconds
  rw [if_pos hv]
  refine ⟨_, rfl, ?_, ?_, ?_⟩ <;> omega

/-- C51: a timestamp chrono cannot represent panics. -/
theorem C51_invalid_panics (valid : Int → Bool) (t : Int) (hv : valid t = false) : dayElapsedSeconds valid t = .error .unwrap := by
  unfold dayElapsedSeconds; simp [hv]

/-- C51: the start of the day is the greatest multiple of 86400 not exceeding the timestamp. -/
theorem C51_start_of_day (t : Int) : (86400 : Int) ∣ startDayTs t ∧ startDayTs t ≤ t ∧ ∀ k : Int, (86400 : Int) ∣ k → k ≤ t → k ≤ startDayTs t := by
  unfold startDayTs
  dsimp only
  refine ⟨by omega, by omega, fun k hk hle => by omega⟩

/-- C51: the two agree: a timestamp is the start of its day plus its seconds of the day. -/
theorem C51_decompose (valid : Int → Bool) (t : Int) (hv : valid t = true) : dayElapsedSeconds valid t = .ok (t - startDayTs t) := by
  unfold dayElapsedSeconds startDayTs
  rw [if_pos hv]
  dsimp only
  congr 1
  omega

example : dayElapsedSeconds (fun _ => true) 1730419225 = .ok 25 ∧ startDayTs 1730419225 = 1730419200 := by decide
example : dayElapsedSeconds (fun _ => true) (-1) = .ok 86399 ∧ startDayTs (-1) = -86400 := by decide

end Atsc
