import Verif.Props.Vsri
import Verif.Lemmas.Stream
import Mathlib.Data.Finset.Card
/- C97: what the index makes of repeated timestamps. -/
namespace Atsc
open Vsri

/-- How the last segment of the index stands to the last point `t`, with `c` the number of samples and `d` the number of different timestamps. -/
def LastSeg (s : Seg) (t : Int) (d : Nat) : Prop :=
  (s.m = 0 ∧ s.y0 = t ∧ s.n = 1 ∧ s.x0 + s.n ≤ 2 * d - 1 ∧ (d : Int) ≤ s.x0 + s.n) ∨
  (s.m = 0 ∧ s.y0 = t ∧ s.n = 2 ∧ s.x0 + s.n ≤ 2 * d ∧ (d : Int) + 1 ≤ s.x0 + s.n) ∨
  (0 < s.m ∧ 2 ≤ s.n ∧ s.y0 + s.m * (s.n - 1) ≤ t ∧ t < s.y0 + s.m * s.n ∧ s.x0 + s.n ≤ 2 * d - 2 ∧ (d : Int) ≤ s.x0 + s.n)

/-- The index `v` after the sorted history `h`. -/
def Rep (v : Vsri) (h : List Int) : Prop :=
  (h = [] ∧ v = .new) ∨ ∃ ss s, h ≠ [] ∧ v.segs = ss ++ [s] ∧ v.maxTs = h.getLastD 0 ∧
    Contiguous 0 ss s.x0 ∧ (∀ u ∈ ss, 0 < u.m ∧ 2 ≤ u.n) ∧ (ss ++ [s]).Pairwise (fun a b => a.last ≤ b.y0) ∧
    LastSeg s v.maxTs h.toFinset.card ∧ (∀ u ∈ ss ++ [s], u.y0 ∈ h) ∧
    (∀ y ∈ h, ∃ u ∈ ss ++ [s], y = u.y0 ∨ (u.y0 ≤ y ∧ y < u.y0 + u.m * u.n)) ∧ 0 ≤ s.x0

/-- The number of samples of the index. -/
def cnt (v : Vsri) : Int := v.current.x0 + v.current.n

theorem Contiguous_le : ∀ {ss : List Seg} {a b : Int}, Contiguous a ss b → a ≤ b := by
  intro ss
  induction ss with
  | nil => intro a b h; exact le_of_eq h
  | cons s ss ih => rintro a b ⟨-, h1, h2⟩; have := ih h2; omega

theorem Contiguous_snoc : ∀ {ss : List Seg} {a b : Int} {s : Seg}, Contiguous a ss b → s.x0 = b → 1 ≤ s.n → Contiguous a (ss ++ [s]) (b + s.n) := by
  intro ss
  induction ss with
  | nil => intro a b s h h1 h2; exact ⟨by rw [h1]; exact h.symm, h2, by rw [show a = b from h]; rfl⟩
  | cons u ss ih => rintro a b s ⟨h0, h1, h2⟩ h3 h4; exact ⟨h0, h1, ih h2 h3 h4⟩

theorem card_snoc_new {h : List Int} {y : Int} (hy : y ∉ h) : (h ++ [y]).toFinset.card = h.toFinset.card + 1 := by
  rw [List.toFinset_append]
  have : h.toFinset ∪ [y].toFinset = insert y h.toFinset := by ext z; simp [or_comm]
  rw [this, Finset.card_insert_of_notMem (by simpa using hy)]

theorem card_snoc_old {h : List Int} {y : Int} (hy : y ∈ h) : (h ++ [y]).toFinset.card = h.toFinset.card := by
  congr 1; ext z; simp; rintro rfl; exact hy

theorem max_of_sorted {h : List Int} {y : Int} (hne : h ≠ []) (hs : (h ++ [y]).Pairwise (· ≤ ·)) :
    h.getLastD 0 ≤ y ∧ (y ∈ h ↔ y = h.getLastD 0) := by
  have hl : h.getLastD 0 = h.getLast hne := by
    rw [List.getLastD_eq_getLast?, List.getLast?_eq_some_getLast hne]; rfl
  rw [hl]
  obtain ⟨h1, -, h2⟩ := List.pairwise_append.1 hs
  have hle := h2 _ (List.getLast_mem hne) y (by simp)
  refine ⟨hle, fun hm => ?_, fun e => by rw [e]; exact List.getLast_mem hne⟩
  -- everything in `h` is at most its last element
  have : y ≤ h.getLast hne := by
    obtain ⟨i, hi, rfl⟩ := List.getElem_of_mem hm
    rw [List.getLast_eq_getElem]
    rcases Nat.lt_or_ge i (h.length - 1) with c | c
    · exact List.pairwise_iff_getElem.1 h1 _ _ _ _ c
    · have : i = h.length - 1 := by omega
      subst this; exact le_refl _
  omega

theorem current_of {v : Vsri} {ss : List Seg} {s : Seg} (h : v.segs = ss ++ [s]) : v.current = s := by
  unfold Vsri.current; rw [h]; simp

theorem set_last (ss : List Seg) (s u : Seg) : (ss ++ [s]).set ((ss ++ [s]).length - 1) u = ss ++ [u] := by
  simp

theorem rep_step {p : Profile} {v v' : Vsri} {h : List Int} {y : Int} {r : Bool} (R : Rep v h) (H : SortedHistory (h ++ [y]))
    (hc : cnt v ≤ h.length) (hu : v.update p y = .ok (v', r)) :
    r = true ∧ Rep v' (h ++ [y]) ∧ cnt v' ≤ cnt v + 1 ∧ (v.current.m = 0 → v.current.n = 2 → cnt v' = cnt v) := by
  have hy := H.range y (by simp)
  have hfew : h.length + 1 < 2147483648 := by have := H.few; simpa using this
  rcases R with ⟨rfl, rfl⟩ | ⟨ss, s, hne, hsegs, hmax, hcon, hss, hpw, hlast, hin, hcov, hx0⟩
  · -- first point
    unfold update at hu
    rw [if_neg (by simp only [Vsri.new]; omega)] at hu
    dsimp only at hu
    rw [if_pos (by rfl)] at hu
    unfold fakeSegment at hu
    have : i32op p (({ minTs := y, maxTs := y, segs := [] } : Vsri).current.x0 + ({ minTs := y, maxTs := y, segs := [] } : Vsri).current.n) = .ok 0 :=
      i32op_in (by show InI32 (0 + 0); decide)
    change (do let s ← (do let x ← i32op p (({ minTs := y, maxTs := y, segs := [] } : Vsri).current.x0 + ({ minTs := y, maxTs := y, segs := [] } : Vsri).current.n); Except.ok (⟨0, x, y, 1⟩ : Seg)); Except.ok (({ minTs := y, maxTs := y, segs := [] ++ [s] } : Vsri), true)) = .ok (v', r) at hu
    rw [this] at hu
    obtain ⟨rfl, rfl⟩ := Prod.mk.inj (Except.ok.inj hu)
    refine ⟨rfl, .inr ⟨[], ⟨0, 0, y, 1⟩, by simp, rfl, by simp, rfl, by simp, by simp, ?_, by simp, by simp, by simp⟩, ?_, ?_⟩
    · left; simp
    · simp [cnt, Vsri.current, Vsri.new]
    · simp [Vsri.current, Vsri.new]
  · obtain ⟨hle, hmem⟩ := max_of_sorted hne H.sorted
    rw [← hmax] at hle hmem
    have hcur : v.current = s := current_of hsegs
    have hcnt : cnt v = s.x0 + s.n := by unfold cnt; rw [hcur]
    have hy0 : 0 ≤ s.y0 := (H.range _ (by simp [hin s (by simp)])).1
    have hcur' : ({ v with maxTs := y } : Vsri).current = s := current_of hsegs
    rw [hcnt] at hc
    unfold update at hu
    rw [if_neg (by omega)] at hu
    dsimp only at hu
    rw [if_neg (by rw [hsegs]; simp)] at hu
    have hcard : (h ++ [y]).toFinset.card = h.toFinset.card + (if y = v.maxTs then 0 else 1) := by
      by_cases e : y = v.maxTs
      · rw [if_pos e, card_snoc_old (hmem.2 e)]; rfl
      · rw [if_neg e, card_snoc_new (fun hm => e (hmem.1 hm))]
    have hlastD : (h ++ [y]).getLastD 0 = y := by simp
    by_cases hm : s.m = 0
    · -- a segment of one timestamp
      have hb : s.y0 = v.maxTs ∧ (s.n = 1 ∨ s.n = 2) := by
        rcases hlast with l | l | l <;> omega
      rw [if_pos (by unfold isFake; rw [hcur', hm]; rfl)] at hu
      unfold generateSegment at hu
      rw [hcur', if_neg (by omega)] at hu
      rw [i32op_in (by unfold InI32; omega)] at hu
      obtain ⟨rfl, rfl⟩ := Prod.mk.inj (Except.ok.inj hu)
      simp only [hsegs, set_last]
      have hpw' := List.pairwise_append.1 hpw
      have hcnt' : cnt ({ minTs := v.minTs, maxTs := y, segs := ss ++ [⟨y - s.y0, s.x0, s.y0, 2⟩] } : Vsri) = s.x0 + 2 := by
        unfold cnt; rw [current_snoc]
      refine ⟨trivial, .inr ⟨ss, ⟨y - s.y0, s.x0, s.y0, 2⟩, by simp, rfl, hlastD.symm, hcon, hss, ?_, ?_, ?_, ?_, hx0⟩, ?_, ?_⟩
      · refine List.pairwise_append.2 ⟨hpw'.1, by simp, fun a ha b hb => ?_⟩
        rw [List.mem_singleton.1 hb]
        exact hpw'.2.2 a ha s (by simp)
      · rw [hcard]
        unfold LastSeg at hlast ⊢
        dsimp only
        by_cases e : y = v.maxTs
        · rw [if_pos e]
          rcases hlast with l | l | l
          · right; left; refine ⟨by omega, by omega, rfl, by push_cast; omega, by push_cast; omega⟩
          · right; left; refine ⟨by omega, by omega, rfl, by push_cast; omega, by push_cast; omega⟩
          · omega
        · rw [if_neg e]
          have hlt : v.maxTs < y := by omega
          right; right
          refine ⟨by omega, by omega, by omega, by omega, ?_, ?_⟩ <;> rcases hlast with l | l | l <;> push_cast <;> omega
      · intro u hu
        rcases List.mem_append.1 hu with q | q
        · exact List.mem_append_left _ (hin u (by simp [q]))
        · rw [List.mem_singleton.1 q]; exact List.mem_append_left _ (hin s (by simp))
      · intro z hz
        rcases List.mem_append.1 hz with q | q
        · obtain ⟨u, hu, hc⟩ := hcov z q
          rcases List.mem_append.1 hu with w | w
          · exact ⟨u, by simp [w], hc⟩
          · rw [List.mem_singleton.1 w, hm] at hc
            refine ⟨_, by simp; right; rfl, ?_⟩
            left; dsimp only; omega
        · rw [List.mem_singleton.1 q]
          refine ⟨_, by simp; right; rfl, ?_⟩
          dsimp only
          by_cases e : y = s.y0
          · left; exact e
          · right; omega
      · rw [hcnt, hcnt']; omega
      · intro _ h2
        rw [hcur] at h2
        rw [hcnt, hcnt', h2]
    · have hl : 0 < s.m ∧ 2 ≤ s.n ∧ s.y0 + s.m * (s.n - 1) ≤ v.maxTs ∧ v.maxTs < s.y0 + s.m * s.n ∧ s.x0 + s.n ≤ 2 * h.toFinset.card - 2 ∧
          (h.toFinset.card : Int) ≤ s.x0 + s.n := by
        rcases hlast with l | l | l
        · exact absurd l.1 hm
        · exact absurd l.1 hm
        · exact l
      obtain ⟨l1, l2, l3, l4, l5, l6⟩ := hl
      have hmn : 0 ≤ s.m * (s.n - 1) := Int.mul_nonneg (by omega) (by omega)
      rw [if_neg (by unfold isFake; rw [hcur']; simpa using hm)] at hu
      obtain ⟨f, hf, hu⟩ := bind_ok_iff.1 hu
      have hpw' := List.pairwise_append.1 hpw
      cases f with
      | true =>
        have hfit := fits_true (v := { v with maxTs := y }) (by rw [hcur']; exact l1) (by rw [hcur']; omega) (by rw [hcur']; omega)
          (by rw [hcur']; omega) (by rw [hcur']; omega) (by rw [hcur']; omega) hy.2 (by rw [hcur']; omega) hf
        rw [hcur'] at hfit
        rw [if_pos rfl, hcur', i32op_in (by unfold InI32; omega)] at hu
        obtain ⟨rfl, rfl⟩ := Prod.mk.inj (Except.ok.inj hu)
        simp only [hsegs, set_last]
        have hcnt' : cnt ({ minTs := v.minTs, maxTs := y, segs := ss ++ [{ s with n := s.n + 1 }] } : Vsri) = s.x0 + (s.n + 1) := by
          unfold cnt; rw [current_snoc]
        have e3 : s.m * (s.n + 1) = s.m * s.n + s.m := by ring
        have e4 : s.m * (s.n + 1 - 1) = s.m * s.n := by ring
        refine ⟨trivial, .inr ⟨ss, { s with n := s.n + 1 }, by simp, rfl, hlastD.symm, hcon, hss, ?_, ?_, ?_, ?_, hx0⟩, ?_, ?_⟩
        · refine List.pairwise_append.2 ⟨hpw'.1, by simp, fun a ha b hb => ?_⟩
          rw [List.mem_singleton.1 hb]
          exact hpw'.2.2 a ha s (by simp)
        · rw [hcard, if_neg (by omega)]
          right; right
          dsimp only
          refine ⟨l1, by omega, by omega, by omega, by push_cast; omega, by push_cast; omega⟩
        · intro u hu
          rcases List.mem_append.1 hu with q | q
          · exact List.mem_append_left _ (hin u (by simp [q]))
          · rw [List.mem_singleton.1 q]; exact List.mem_append_left _ (hin s (by simp))
        · intro z hz
          rcases List.mem_append.1 hz with q | q
          · obtain ⟨u, hu, hc⟩ := hcov z q
            rcases List.mem_append.1 hu with w | w
            · exact ⟨u, by simp [w], hc⟩
            · rw [List.mem_singleton.1 w] at hc
              refine ⟨_, by simp; right; rfl, ?_⟩
              dsimp only; omega
          · rw [List.mem_singleton.1 q]
            refine ⟨_, by simp; right; rfl, ?_⟩
            dsimp only; right; omega
        · rw [hcnt, hcnt']; omega
        · intro h0; rw [hcur] at h0; omega
      | false =>
        rw [if_neg (by simp)] at hu
        unfold fakeSegment at hu
        rw [hcur', i32op_in (by unfold InI32; omega)] at hu
        obtain ⟨rfl, rfl⟩ := Prod.mk.inj (Except.ok.inj hu)
        simp only [hsegs]
        have hcnt' : cnt ({ minTs := v.minTs, maxTs := y, segs := ss ++ [s] ++ [⟨0, s.x0 + s.n, y, 1⟩] } : Vsri) = s.x0 + s.n + 1 := by
          unfold cnt; rw [current_snoc]
        refine ⟨trivial, .inr ⟨ss ++ [s], ⟨0, s.x0 + s.n, y, 1⟩, by simp, rfl, hlastD.symm, Contiguous_snoc hcon rfl (by omega), ?_, ?_, ?_, ?_, ?_, ?_⟩, ?_, ?_⟩
        · intro u hu
          rcases List.mem_append.1 hu with q | q
          · exact hss u q
          · rw [List.mem_singleton.1 q]; exact ⟨l1, l2⟩
        · refine List.pairwise_append.2 ⟨hpw, by simp, fun a ha b hb => ?_⟩
          rw [List.mem_singleton.1 hb]
          dsimp only
          rcases List.mem_append.1 ha with q | q
          · have := hpw'.2.2 a q s (by simp)
            omega
          · rw [List.mem_singleton.1 q]; unfold Seg.last; omega
        · rw [hcard]
          left
          dsimp only
          refine ⟨rfl, rfl, rfl, ?_, ?_⟩ <;> split <;> push_cast <;> omega
        · intro u hu
          rcases List.mem_append.1 hu with q | q
          · exact List.mem_append_left _ (hin u q)
          · rw [List.mem_singleton.1 q]; simp
        · intro z hz
          rcases List.mem_append.1 hz with q | q
          · obtain ⟨u, hu, hc⟩ := hcov z q
            exact ⟨u, List.mem_append_left _ hu, hc⟩
          · rw [List.mem_singleton.1 q]
            exact ⟨_, by simp; right; right; rfl, .inl rfl⟩
        · dsimp only; omega
        · rw [hcnt, hcnt']
        · intro h0; rw [hcur] at h0; omega

theorem SortedHistory.take {h g : List Int} (H : SortedHistory (h ++ g)) : SortedHistory h where
  sorted := (List.pairwise_append.1 H.sorted).1
  range := fun y hy => H.range y (by simp [hy])
  few := by have := H.few; simp at this; omega

theorem rep_run {p : Profile} : ∀ {ys : List Int} {v w : Vsri} {h : List Int} {rs : List Bool}, Rep v h → SortedHistory (h ++ ys) → cnt v ≤ h.length →
    v.run p ys = .ok (w, rs) → rs = List.replicate ys.length true ∧ Rep w (h ++ ys) ∧ cnt w ≤ cnt v + ys.length ∧
      (ys ≠ [] → v.current.m = 0 → v.current.n = 2 → cnt w < cnt v + ys.length) := by
  intro ys
  induction ys with
  | nil =>
    intro v w h rs R H hc hr
    obtain ⟨rfl, rfl⟩ := Prod.mk.inj (Except.ok.inj hr)
    exact ⟨rfl, by simpa using R, by simp, fun h => absurd rfl h⟩
  | cons y ys ih =>
    intro v w h rs R H hc hr
    unfold Vsri.run at hr
    obtain ⟨⟨v1, r⟩, h1, hr⟩ := bind_ok_iff.1 hr
    obtain ⟨⟨w1, rs1⟩, h2, hr⟩ := bind_ok_iff.1 hr
    obtain ⟨rfl, rfl⟩ := Prod.mk.inj (Except.ok.inj hr)
    have H' : SortedHistory ((h ++ [y]) ++ ys) := by simpa using H
    obtain ⟨rfl, R1, c1, c2⟩ := rep_step R H'.take hc h1
    obtain ⟨rfl, R2, c3, -⟩ := ih R1 H' (by simp; omega) h2
    refine ⟨rfl, by simpa using R2, by simp; omega, fun _ e1 e2 => ?_⟩
    have := c2 e1 e2
    simp; omega

theorem rep_of {p : Profile} {h : List Int} (H : SortedHistory h) {v : Vsri} {rs : List Bool} (hr : Vsri.run p .new h = .ok (v, rs)) :
    rs = List.replicate h.length true ∧ Rep v h ∧ cnt v ≤ h.length := by
  have h0 : cnt .new = 0 := by simp [cnt, Vsri.current, Vsri.new]
  obtain ⟨h1, h2, h3, -⟩ := rep_run (h := []) (.inl ⟨rfl, rfl⟩) (by simpa using H) (by rw [h0]; simp) hr
  exact ⟨h1, by simpa using h2, by rw [h0] at h3; simpa using h3⟩

theorem Rep.card_bounds {v : Vsri} {h : List Int} (R : Rep v h) : (h.toFinset.card : Int) ≤ cnt v ∧ cnt v ≤ 2 * h.toFinset.card ∧ 0 ≤ cnt v := by
  rcases R with ⟨rfl, rfl⟩ | ⟨ss, s, -, hsegs, -, -, -, -, hlast, -, -, hx0⟩
  · simp [cnt, Vsri.current, Vsri.new]
  · unfold cnt
    rw [current_of hsegs]
    rcases hlast with l | l | l <;> omega

theorem Rep.contiguous {v : Vsri} {h : List Int} (R : Rep v h) : Contiguous 0 v.segs (cnt v) := by
  rcases R with ⟨rfl, rfl⟩ | ⟨ss, s, -, hsegs, -, hcon, -, -, hlast, -, -, hx0⟩
  · simp [cnt, Vsri.current, Vsri.new, Contiguous]
  · unfold cnt
    rw [current_of hsegs, hsegs]
    exact Contiguous_snoc hcon rfl (by rcases hlast with l | l | l <;> omega)

/-- **C97, counts.** Whatever times repeat, no point given in time order is refused, the samples are numbered contiguously, and their number is at least that of
the different timestamps, at most twice that, and at most that of the points. -/
theorem C97_counts (p : Profile) (h : List Int) (H : SortedHistory h) (v : Vsri) (rs : List Bool) (hr : Vsri.run p .new h = .ok (v, rs)) :
    rs = List.replicate h.length true ∧ ∃ c : Nat, v.sampleCount p = .ok (c : Int) ∧ Contiguous 0 v.segs c ∧
      h.toFinset.card ≤ c ∧ c ≤ 2 * h.toFinset.card ∧ c ≤ h.length := by
  obtain ⟨h1, R, h2⟩ := rep_of H hr
  obtain ⟨c1, c2, c3⟩ := R.card_bounds
  have hf := H.few
  refine ⟨h1, (cnt v).toNat, ?_, ?_, by omega, by omega, by omega⟩
  · unfold sampleCount
    have : v.current.n + v.current.x0 = cnt v := by unfold cnt; ring
    rw [this, i32op_in (by unfold InI32; omega)]
    congr 1; omega
  · have := R.contiguous
    rwa [show (((cnt v).toNat : Nat) : Int) = cnt v by omega]

/-- The run of `C97_counts` does not panic in a release build. -/
theorem C97_release_total (h : List Int) (H : SortedHistory h) : ∃ v, Vsri.run .release .new h = .ok (v, List.replicate h.length true) := by
  obtain ⟨v, rs, hr⟩ := C40_release_never_panics h fun y hy => by have := H.range y hy; unfold InI32; omega
  exact ⟨v, by rw [hr, (rep_of H hr).1]⟩

theorem run_append_rep {p : Profile} : ∀ {g g' : List Int} {v w : Vsri} {rs : List Bool}, v.run p (g ++ g') = .ok (w, rs) →
    ∃ u r1 r2, v.run p g = .ok (u, r1) ∧ u.run p g' = .ok (w, r2) := by
  intro g
  induction g with
  | nil => intro g' v w rs h; exact ⟨v, [], rs, rfl, h⟩
  | cons y g ih =>
    intro g' v w rs h
    rw [List.cons_append] at h
    unfold Vsri.run at h
    obtain ⟨⟨v1, r⟩, h1, h⟩ := bind_ok_iff.1 h
    obtain ⟨⟨w1, rs1⟩, h2, h⟩ := bind_ok_iff.1 h
    obtain ⟨rfl, rfl⟩ := Prod.mk.inj (Except.ok.inj h)
    obtain ⟨u, r1, r2, e1, e2⟩ := ih h2
    refine ⟨u, r :: r1, r2, ?_, e2⟩
    unfold Vsri.run
    rw [h1]
    show (do let (w, rs) ← v1.run p g; Except.ok (w, r :: rs)) = _
    rw [e1]; rfl

/-- The state of the last segment after a point was repeated. -/
theorem repeat_state {p : Profile} {v v' : Vsri} {h : List Int} {r : Bool} (hne : h ≠ []) (R : Rep v h) (H : SortedHistory (h ++ [h.getLastD 0]))
    (hc : cnt v ≤ h.length) (hu : v.update p (h.getLastD 0) = .ok (v', r)) :
    v'.current.m = 0 ∧ (v.current.m = 0 → v'.current.n = 2) := by
  obtain ⟨-, R', c1, c2⟩ := rep_step R H hc hu
  rcases R with ⟨rfl, -⟩ | ⟨ss, s, -, hsegs, hmax, hcon, hss, hpw, hlast, hin, hcov, hx0⟩
  · exact absurd rfl hne
  have hcur : v.current = s := current_of hsegs
  have hcur' : ({ v with maxTs := h.getLastD 0 } : Vsri).current = s := current_of hsegs
  have hy := H.range (h.getLastD 0) (by simp)
  have hfew : h.length + 1 < 2147483648 := by have := H.few; simpa using this
  have hcnt : cnt v = s.x0 + s.n := by unfold cnt; rw [hcur]
  have hy0 : 0 ≤ s.y0 := (H.range _ (by simp [hin s (by simp)])).1
  rw [hcnt] at hc
  unfold update at hu
  rw [if_neg (by omega)] at hu
  dsimp only at hu
  rw [if_neg (by rw [hsegs]; simp)] at hu
  by_cases hm : s.m = 0
  · have hb : s.y0 = v.maxTs := by rcases hlast with l | l | l <;> omega
    rw [if_pos (by unfold isFake; rw [hcur', hm]; rfl)] at hu
    unfold generateSegment at hu
    rw [hcur', if_neg (by omega)] at hu
    rw [i32op_in (by unfold InI32; omega)] at hu
    obtain ⟨rfl, rfl⟩ := Prod.mk.inj (Except.ok.inj hu)
    simp only [hsegs, set_last, current_snoc]
    exact ⟨by omega, fun _ => trivial⟩
  · have hl : 0 < s.m ∧ 2 ≤ s.n ∧ s.y0 + s.m * (s.n - 1) ≤ v.maxTs ∧ v.maxTs < s.y0 + s.m * s.n := by
      rcases hlast with l | l | l
      · exact absurd l.1 hm
      · exact absurd l.1 hm
      · exact ⟨l.1, l.2.1, l.2.2.1, l.2.2.2.1⟩
    obtain ⟨l1, l2, l3, l4⟩ := hl
    have hmn : 0 ≤ s.m * (s.n - 1) := Int.mul_nonneg (by omega) (by omega)
    rw [if_neg (by unfold isFake; rw [hcur']; simpa using hm)] at hu
    obtain ⟨f, hf, hu⟩ := bind_ok_iff.1 hu
    cases f with
    | true =>
      have hfit := fits_true (v := { v with maxTs := h.getLastD 0 }) (by rw [hcur']; exact l1) (by rw [hcur']; omega) (by rw [hcur']; omega)
        (by rw [hcur']; omega) (by rw [hcur']; omega) (by rw [hcur']; omega) hy.2 (by rw [hcur']; omega) hf
      rw [hcur'] at hfit
      omega
    | false =>
      rw [if_neg (by simp)] at hu
      unfold fakeSegment at hu
      rw [hcur', i32op_in (by unfold InI32; omega)] at hu
      obtain ⟨rfl, rfl⟩ := Prod.mk.inj (Except.ok.inj hu)
      simp only [hsegs, current_snoc]
      exact ⟨trivial, fun h0 => absurd (by rw [hcur] at h0; exact h0) hm⟩

/-- **C97, losses.** A timestamp given three times and followed by any other point - or given four times - is not counted in full: the index has fewer samples
than points, so later sample numbers no longer match the positions of the values. -/
theorem C97_refuted_three (p : Profile) (g g' : List Int) (y : Int) (hg' : g' ≠ []) (H : SortedHistory (g ++ [y, y, y] ++ g')) (v : Vsri) (rs : List Bool)
    (hr : Vsri.run p .new (g ++ [y, y, y] ++ g') = .ok (v, rs)) :
    ∃ c : Nat, v.sampleCount p = .ok (c : Int) ∧ c < (g ++ [y, y, y] ++ g').length := by
  obtain ⟨-, c, hc, -⟩ := C97_counts p _ H v rs hr
  refine ⟨c, hc, ?_⟩
  obtain ⟨u, r1, r2, e1, e2⟩ := run_append_rep hr
  rw [show g ++ [y, y, y] = (g ++ [y]) ++ [y, y] by simp] at e1
  obtain ⟨w, r3, r4, e3, e4⟩ := run_append_rep e1
  have Hu := H.take
  have Hw : SortedHistory (g ++ [y]) := by
    have : SortedHistory ((g ++ [y]) ++ [y, y]) := by simpa using Hu
    exact this.take
  have Hm : SortedHistory ((g ++ [y]) ++ [y]) := by
    have : SortedHistory ((g ++ [y] ++ [y]) ++ [y]) := by simpa using Hu
    exact this.take
  obtain ⟨-, Rw, cw⟩ := rep_of Hw e3
  unfold Vsri.run at e4
  obtain ⟨⟨w1, q1⟩, e5, e4⟩ := bind_ok_iff.1 e4
  obtain ⟨⟨w2, q2⟩, e6, e4⟩ := bind_ok_iff.1 e4
  obtain ⟨rfl, rfl⟩ := Prod.mk.inj (Except.ok.inj e4)
  unfold Vsri.run at e6
  obtain ⟨⟨w3, q3⟩, e7, e6⟩ := bind_ok_iff.1 e6
  obtain ⟨⟨w4, q4⟩, e8, e6⟩ := bind_ok_iff.1 e6
  obtain ⟨rfl, rfl⟩ := Prod.mk.inj (Except.ok.inj e6)
  obtain ⟨rfl, rfl⟩ := Prod.mk.inj (Except.ok.inj e8)
  have hl1 : (g ++ [y]).getLastD 0 = y := by simp
  have hl2 : (g ++ [y] ++ [y]).getLastD 0 = y := by simp
  obtain ⟨-, R1, k1, -⟩ := rep_step Rw Hm cw e5
  obtain ⟨s1, -⟩ := repeat_state (by simp) Rw (by rw [hl1]; exact Hm) cw (by rw [hl1]; exact e5)
  have H3 : SortedHistory (g ++ [y] ++ [y] ++ [y]) := by simpa using Hu
  have cw1 : cnt w1 ≤ (g ++ [y] ++ [y]).length := by simp at cw ⊢; omega
  obtain ⟨-, R2, k2, -⟩ := rep_step R1 H3 cw1 e7
  obtain ⟨s2, s3⟩ := repeat_state (by simp) R1 (by rw [hl2]; exact H3) cw1 (by rw [hl2]; exact e7)
  have cw2 : cnt w3 ≤ (g ++ [y] ++ [y] ++ [y]).length := by simp at cw1 ⊢; omega
  obtain ⟨-, -, -, k3⟩ := rep_run R2 (by simpa using H) cw2 e2
  have k4 := k3 hg' s2 (s3 s1)
  have : (c : Int) = cnt v := by
    obtain ⟨-, R, hv⟩ := rep_of H hr
    have b := R.card_bounds
    have hf := H.few
    unfold sampleCount at hc
    rw [show v.current.n + v.current.x0 = cnt v by unfold cnt; ring, i32op_in (by unfold InI32; omega)] at hc
    exact (Except.ok.inj hc).symm
  simp at cw2 ⊢
  omega

theorem Rep.shape {v : Vsri} {h : List Int} (R : Rep v h) (hne : h ≠ []) (hs : h.Pairwise (· ≤ ·)) :
    v.segs.Pairwise (fun a b => a.last ≤ b.y0) ∧ (∀ u ∈ v.segs, 0 ≤ u.m ∧ 1 ≤ u.n ∧ u.y0 ∈ h ∧ u.last ≤ v.maxTs) ∧ v.maxTs = h.getLastD 0 ∧
      (∀ y ∈ h, ∃ u ∈ v.segs, y = u.y0 ∨ (u.y0 ≤ y ∧ y < u.y0 + u.m * u.n)) := by
  rcases R with ⟨rfl, -⟩ | ⟨ss, s, -, hsegs, hmax, hcon, hss, hpw, hlast, hin, hcov, hx0⟩
  · exact absurd rfl hne
  rw [hsegs]
  refine ⟨hpw, fun u hu => ?_, hmax, hcov⟩
  have hlq : s.last ≤ v.maxTs ∧ s.y0 ≤ s.last := by
    unfold Seg.last
    rcases hlast with l | l | l
    · rw [l.1]; omega
    · rw [l.1]; omega
    · have := Int.mul_nonneg l.1.le (show 0 ≤ s.n - 1 by omega); omega
  rcases List.mem_append.1 hu with q | q
  · obtain ⟨h1, h2⟩ := hss u q
    have := (List.pairwise_append.1 hpw).2.2 u q s (by simp)
    exact ⟨by omega, by omega, hin u hu, by omega⟩
  · rw [List.mem_singleton.1 q]
    refine ⟨?_, ?_, hin s (by simp), hlq.1⟩ <;> rcases hlast with l | l | l <;> omega

theorem mem_times {u : Seg} {t : Int} (hm : 0 ≤ u.m) (h : t ∈ u.times) : u.y0 ≤ t ∧ t ≤ u.last := by
  obtain ⟨f, hf, rfl⟩ := List.mem_map.1 h
  have hf := List.mem_range.1 hf
  have h1 : 0 ≤ (f : Int) * u.m := Int.mul_nonneg (by omega) hm
  have h2 : (f : Int) * u.m ≤ (u.n - 1) * u.m := Int.mul_le_mul_of_nonneg_right (by omega) hm
  unfold Seg.last
  rw [Int.mul_comm u.m]
  omega

theorem times_sorted {u : Seg} (hm : 0 ≤ u.m) : u.times.Pairwise (· ≤ ·) := by
  unfold Seg.times
  rw [List.pairwise_map]
  refine List.Pairwise.imp ?_ List.pairwise_lt_range
  intro a b hab
  have : (a : Int) * u.m ≤ b * u.m := Int.mul_le_mul_of_nonneg_right (by omega) hm
  omega

theorem Contiguous_times : ∀ {segs : List Seg} {a b : Int}, Contiguous a segs b → ((segs.map Seg.times).flatten.length : Int) = b - a := by
  intro segs
  induction segs with
  | nil => intro a b h; have : a = b := h; simp; omega
  | cons s ss ih =>
    rintro a b ⟨h1, h2, h3⟩
    have := ih h3
    rw [List.map_cons, List.flatten_cons, List.length_append]
    have e : s.times.length = s.n.toNat := by unfold Seg.times; simp
    rw [e]
    push_cast
    omega

/-- **C97, timestamps.** The index of points in time order, repeated or not, reports as many timestamps as it has samples, in time order, all between the first
and the last point; and each point given is the start of one of its segments or lies between the start and the end of one. -/
theorem C97_timestamps (p : Profile) (h : List Int) (H : SortedHistory h) (hne : h ≠ []) (v : Vsri) (rs : List Bool) (hr : Vsri.run p .new h = .ok (v, rs)) :
    ∃ ts c, v.allTimestamps p = .ok ts ∧ v.sampleCount p = .ok c ∧ (ts.length : Int) = c ∧ ts.Pairwise (· ≤ ·) ∧
      (∀ t ∈ ts, h.headD 0 ≤ t ∧ t ≤ h.getLastD 0) ∧ (∀ u ∈ v.segs, u.y0 ∈ h ∧ u.y0 ∈ ts) ∧
      (∀ y ∈ h, ∃ u ∈ v.segs, y = u.y0 ∨ (u.y0 ≤ y ∧ y < u.y0 + u.m * u.n)) := by
  obtain ⟨-, R, -⟩ := rep_of H hr
  obtain ⟨-, c, hc, hcon, -⟩ := C97_counts p h H v rs hr
  obtain ⟨h1, h2, h3, h4⟩ := R.shape hne H.sorted
  have hfirst : ∀ y ∈ h, h.headD 0 ≤ y := by
    cases h with
    | nil => exact absurd rfl hne
    | cons a l =>
      intro y hy
      rcases List.mem_cons.1 hy with rfl | q
      · exact le_refl _
      · exact (List.pairwise_cons.1 H.sorted).1 y q
  have hmaxr : v.maxTs < 2147483648 := by
    rw [h3]
    have : h.getLastD 0 ∈ h := by
      rw [List.getLastD_eq_getLast?, List.getLast?_eq_some_getLast hne]; exact List.getLast_mem hne
    exact (H.range _ this).2
  have hseg : ∀ u ∈ v.segs, segTimes p u = .ok u.times := by
    intro u hu
    obtain ⟨a1, a2, a3, a4⟩ := h2 u hu
    have a5 := (H.range _ a3).1
    unfold segTimes Seg.times
    apply mapM_ok
    intro f hf
    have hm := mem_times (t := (f : Int) * u.m + u.y0) a1 (List.mem_map.2 ⟨f, hf, rfl⟩)
    have : 0 ≤ (f : Int) * u.m := Int.mul_nonneg (by omega) a1
    rw [i32op_in (a := (f : Int) * u.m) (by unfold InI32; omega)]
    simp only [bind, Except.bind]
    rw [i32op_in (by unfold InI32; omega)]
  refine ⟨(v.segs.map Seg.times).flatten, c, ?_, hc, ?_, ?_, ?_, ?_, h4⟩
  · unfold allTimestamps
    rw [mapM_ok (g := Seg.times) hseg]; rfl
  · have := Contiguous_times hcon; omega
  · rw [List.pairwise_flatten]
    refine ⟨?_, ?_⟩
    · intro l hl
      obtain ⟨u, hu, rfl⟩ := List.mem_map.1 hl
      exact times_sorted (h2 u hu).1
    · rw [List.pairwise_map]
      refine List.Pairwise.imp_of_mem ?_ h1
      intro a b ha hb hab x hx y hy
      have := mem_times (h2 a ha).1 hx
      have := mem_times (h2 b hb).1 hy
      omega
  · intro t ht
    obtain ⟨l, hl, ht⟩ := List.mem_flatten.1 ht
    obtain ⟨u, hu, rfl⟩ := List.mem_map.1 hl
    obtain ⟨a1, a2, a3, a4⟩ := h2 u hu
    have := mem_times a1 ht
    have := hfirst _ a3
    omega
  · intro u hu
    obtain ⟨a1, a2, a3, a4⟩ := h2 u hu
    refine ⟨a3, List.mem_flatten.2 ⟨u.times, List.mem_map.2 ⟨u, hu, rfl⟩, ?_⟩⟩
    exact List.mem_map.2 ⟨0, List.mem_range.2 (by omega), by simp⟩

/-- 0, 10, 10, 10, 20, 30: the five kept samples are at 0, 10, 10, 20, 30. -/
example (p : Profile) : okAnd (Vsri.run p .new [0, 10, 10, 10, 20, 30]) (fun q => q.1.sampleCount p = .ok 5 ∧
    q.1.allTimestamps p = .ok [0, 10, 10, 20, 30]) = true := by cases p <;> decide
/-- The bounds are met: all points kept, half of them kept. -/
example (p : Profile) : okAnd (Vsri.run p .new [0, 10, 10, 10]) (fun q => q.1.sampleCount p = .ok 4) = true := by cases p <;> decide
example (p : Profile) : okAnd (Vsri.run p .new [5, 5, 5, 9, 9, 9, 9, 12]) (fun q => q.1.sampleCount p = .ok 4) = true := by cases p <;> decide
example : SortedHistory [0, 10, 10, 10, 20, 30] ∧ SortedHistory ([0] ++ [10, 10, 10] ++ [20, 30]) := by
  constructor <;> exact ⟨by decide, by decide, by decide⟩

end Atsc
