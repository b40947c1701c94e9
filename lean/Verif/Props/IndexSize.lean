import Verif.Props.Vsri
import Verif.Props.VsriFile
import Verif.Props.VsriReindex
import Mathlib.Data.Nat.Digits.Defs
/- C91: how large an index gets. -/
namespace Atsc
open Vsri

/-- One stretch of regular sampling: `count` points from `start` on, `step` apart. -/
structure Stretch where
  start : Int
  step : Int
  count : Nat

/-- The points of a stretch. -/
def Stretch.points (s : Stretch) : List Int := regular s.start s.step s.count

theorem regular_succ (t m : Int) (n : Nat) : regular t m (n + 1) = t :: regular (t + m) m n := by
  unfold regular
  rw [List.range_succ_eq_map]
  simp only [List.map_cons, List.map_map]
  congr 1
  · simp
  · apply List.map_congr_left
    intro i _
    simp only [Function.comp_apply, Nat.succ_eq_add_one]
    push_cast; ring

theorem DayHistory.left {a b : List Int} (D : DayHistory (a ++ b)) : DayHistory a :=
  ⟨(List.pairwise_append.1 D.increasing).1, fun y hy => D.range y (List.mem_append_left _ hy)⟩

/-- What one more point of a day does to the segments. -/
theorem update_kinds {p : Profile} {v : Vsri} {h : List Int} {y : Int} (I : Inv v h) (D : DayHistory (h ++ [y])) :
    ∃ v', v.update p y = .ok (v', true) ∧ Inv v' (h ++ [y]) ∧
      ((v.segs = [] ∧ v'.segs = [⟨0, 0, y, 1⟩]) ∨
       (∃ ss s, v.segs = ss ++ [s] ∧ s.m = 0 ∧ v'.segs = ss ++ [⟨y - s.y0, s.x0, s.y0, 2⟩]) ∨
       (∃ ss s, v.segs = ss ++ [s] ∧ 0 < s.m ∧ v'.segs = ss ++ [{ s with n := s.n + 1 }]) ∨
       (∃ ss s, v.segs = ss ++ [s] ∧ 0 < s.m ∧ ¬ (s.y0 + s.m * s.n ≤ y ∧ y < s.y0 + s.m * (s.n + 1)) ∧
          v'.segs = ss ++ [s] ++ [⟨0, s.x0 + s.n, y, 1⟩])) := by
  have hy : h ≠ [] → h.getLastD 0 < y := by
    intro hne
    have e : h.getLastD 0 = h.getLast hne := by rw [List.getLastD_eq_getLast?, List.getLast?_eq_some_getLast hne]; rfl
    rw [e]
    exact (List.pairwise_append.1 D.increasing).2.2 _ (List.getLast_mem hne) y (by simp)
  have hr := D.range y (by simp)
  have hfew := D.strict.few
  simp only [List.length_append, List.length_singleton] at hfew
  rcases update_step (p := p) I hy hr.1 (by omega) hfew with ⟨v', hu, I'⟩ | ⟨_, hb, _⟩
  swap
  · omega
  refine ⟨v', hu, I', ?_⟩
  have hlt := lt_of_getLastD I.hist.increasing hy
  have hnot : ¬ y < v.maxTs := by
    rw [I.maxTs]
    by_cases hne : h = []
    · subst hne; simpa using hr.1
    · have := hy hne; omega
  unfold Vsri.update at hu
  rw [if_neg hnot] at hu
  dsimp only at hu
  by_cases hseg : v.segs = []
  · left
    rw [if_pos (by rw [hseg]; rfl), hseg] at hu
    obtain ⟨s, q1, q2⟩ := bind_ok_iff.1 hu
    obtain ⟨rfl, -⟩ := Prod.mk.inj (Except.ok.inj q2)
    refine ⟨hseg, ?_⟩
    unfold Vsri.fakeSegment at q1
    obtain ⟨x, r1, r2⟩ := bind_ok_iff.1 q1
    obtain rfl := Except.ok.inj r2
    have : x = 0 := by
      have e : ({ minTs := y, maxTs := y, segs := [] } : Vsri).current = ⟨0, 0, 0, 0⟩ := rfl
      rw [e] at r1
      rw [i32op_in (by unfold InI32; decide)] at r1
      exact (Except.ok.inj r1).symm
    subst this; rfl
  · right
    obtain ⟨ss, s, g, blk, hs, rfl, d1, ok, hfull⟩ := I.last hseg
    have hlen : v.segs.length ≠ 0 := by simpa using hseg
    rw [if_neg hlen] at hu
    have hcur : ({ v with maxTs := y } : Vsri).current = s := by unfold Vsri.current; simp [hs]
    have hpos := ok.pos
    have hy0mem : s.y0 ∈ g ++ blk := List.mem_append_right _ (List.mem_of_mem_head? (by rw [ok.head]; rfl))
    have hy0 := D.range _ (List.mem_append_left _ hy0mem)
    have hy0y := hlt _ hy0mem
    have hcount : s.n + s.x0 = ((g ++ blk).length : Int) := by
      rw [ok.n, ok.x0]; simp; omega
    have hset : ∀ t : Seg, v.segs.set (v.segs.length - 1) t = ss ++ [t] := by intro t; simp [hs]
    by_cases hfake : ({ v with maxTs := y } : Vsri).isFake = true
    · rw [if_pos hfake] at hu
      have hm0 : s.m = 0 := by
        unfold Vsri.isFake at hfake; rw [hcur] at hfake; simpa using hfake
      left
      obtain ⟨s', q1, q2⟩ := bind_ok_iff.1 hu
      obtain ⟨rfl, -⟩ := Prod.mk.inj (Except.ok.inj q2)
      refine ⟨ss, s, hs, hm0, ?_⟩
      dsimp only
      rw [hset]
      unfold Vsri.generateSegment at q1
      rw [hcur, if_neg (by omega), i32op_in (by unfold InI32; omega)] at q1
      simp only [bind, Except.bind] at q1
      rw [← Except.ok.inj q1]
    · rw [if_neg hfake] at hu
      right
      have hm : 0 < s.m := by
        rcases ok.kind with ⟨_, h1⟩ | ⟨_, h1⟩
        · exfalso; apply hfake; unfold Vsri.isFake; rw [hcur, h1]; rfl
        · exact h1
      have hlen2 : 2 ≤ blk.length := by
        rcases ok.kind with ⟨_, h1⟩ | ⟨h1, _⟩
        · omega
        · exact h1
      have hx0 : s.x0 = g.length := ok.x0
      have hxy : s.x0 ≤ s.y0 := by
        have e := idx_le I.hist.increasing (fun z hz => (I.hist.range z hz).1) g.length (by simp; omega)
        have e2 : (g ++ blk)[g.length]'(by simp; omega) = s.y0 := by
          rw [List.getElem_append_right (le_refl _)]; simpa using ok.first
        rw [e2] at e; omega
      have hmy : s.y0 + s.m < 86400 := by
        have := ok.second (by omega)
        have h2 := D.range blk[1] (by simp)
        omega
      have hprod : s.m * s.x0 < 1866240001 := by
        have h1 : s.m * s.x0 ≤ s.m * (86400 - s.m) := Int.mul_le_mul_of_nonneg_left (by omega) hm.le
        have h2 : 0 ≤ (s.m - 43200) * (s.m - 43200) := mul_self_nonneg _
        nlinarith
      have hfit := fits_exact (p := p) (v := { v with maxTs := y }) (y := y) (by rw [hcur]; exact hm) (by rw [hcur]; omega)
        (by rw [hcur, ok.n]; omega) (by rw [hcur]; have := I.hist.few; omega) (by rw [hcur]; exact hy0.1) (by rw [hcur]; omega)
        (by omega) (by rw [hcur]; omega)
      rw [hcur] at hfit
      rw [hfit] at hu
      simp only [bind, Except.bind] at hu
      by_cases hc : s.y0 + s.m * s.n ≤ y ∧ y < s.y0 + s.m * (s.n + 1)
      · rw [if_pos (by simpa using hc), hcur, i32op_in (by unfold InI32; have := I.hist.few; omega)] at hu
        simp only at hu
        obtain ⟨rfl, -⟩ := Prod.mk.inj (Except.ok.inj hu)
        left
        exact ⟨ss, s, hs, hm, hset _⟩
      · rw [if_neg (by simpa using hc)] at hu
        unfold Vsri.fakeSegment at hu
        rw [hcur, i32op_in (by unfold InI32; have := I.hist.few; omega)] at hu
        simp only [bind, Except.bind] at hu
        obtain ⟨rfl, -⟩ := Prod.mk.inj (Except.ok.inj hu)
        right
        exact ⟨ss, s, hs, hm, hc, by dsimp only; rw [hs]⟩

/-- The last segment continues exactly with steps of `m` after `y`. -/
def Locked (m y : Int) (v : Vsri) : Prop :=
  ∃ ss s, v.segs = ss ++ [s] ∧ ((s.m = 0 ∧ s.y0 = y) ∨ (s.m = m ∧ 0 < m ∧ s.y0 + m * (s.n - 1) = y))

theorem locked_step {p : Profile} {v : Vsri} {h : List Int} {m y : Int} (I : Inv v h) (L : Locked m y v) (hm : 0 < m) (D : DayHistory (h ++ [y + m])) :
    ∃ v', v.update p (y + m) = .ok (v', true) ∧ Inv v' (h ++ [y + m]) ∧ Locked m (y + m) v' ∧ v'.segs.length = v.segs.length := by
  obtain ⟨v', hu, I', k⟩ := update_kinds (p := p) I D
  obtain ⟨ss, s, hs, hL⟩ := L
  refine ⟨v', hu, I', ?_⟩
  have inj : ∀ {tt : List Seg} {t : Seg}, v.segs = tt ++ [t] → tt = ss ∧ t = s := by
    intro tt t ht
    rw [hs] at ht
    have := List.append_inj' ht rfl
    exact ⟨this.1.symm, by simpa using this.2.symm⟩
  rcases k with ⟨he, -⟩ | ⟨tt, t, ht, h0, hv⟩ | ⟨tt, t, ht, h0, hv⟩ | ⟨tt, t, ht, h0, hn, hv⟩
  · rw [hs] at he; simp at he
  · obtain ⟨rfl, rfl⟩ := inj ht
    rcases hL with ⟨-, hy⟩ | ⟨hm', -, -⟩
    · refine ⟨⟨tt, _, hv, Or.inr ⟨?_, hm, ?_⟩⟩, by rw [hv, hs]; simp⟩
      · dsimp only; omega
      · dsimp only; omega
    · omega
  · obtain ⟨rfl, rfl⟩ := inj ht
    rcases hL with ⟨h1, -⟩ | ⟨hm', -, hy⟩
    · omega
    · refine ⟨⟨tt, _, hv, Or.inr ⟨hm', hm, ?_⟩⟩, by rw [hv, hs]; simp⟩
      dsimp only; rw [← hy]; ring
  · obtain ⟨rfl, rfl⟩ := inj ht
    exfalso
    rcases hL with ⟨h1, -⟩ | ⟨hm', -, hy⟩
    · omega
    · apply hn
      rw [hm', ← hy]
      constructor
      · have : t.y0 + m * t.n = t.y0 + m * (t.n - 1) + m := by ring
        omega
      · have : t.y0 + m * (t.n + 1) = t.y0 + m * (t.n - 1) + m + m := by ring
        omega

theorem run_cons {p : Profile} {v v' w : Vsri} {y : Int} {ys : List Int} {r : Bool} {rs : List Bool} (h1 : v.update p y = .ok (v', r))
    (h2 : Vsri.run p v' ys = .ok (w, rs)) : Vsri.run p v (y :: ys) = .ok (w, r :: rs) := by
  unfold Vsri.run
  rw [h1]; simp only [bind, Except.bind]
  rw [h2]

theorem DayHistory.step {h : List Int} {y : Int} {ys : List Int} (D : DayHistory (h ++ y :: ys)) : DayHistory (h ++ [y]) := by
  have : h ++ y :: ys = (h ++ [y]) ++ ys := by simp
  rw [this] at D; exact D.left

theorem locked_run {p : Profile} {m : Int} : ∀ (n : Nat) (v : Vsri) (h : List Int) (y : Int), Inv v h → Locked m y v → h.getLastD 0 = y → h ≠ [] →
    DayHistory (h ++ regular (y + m) m n) →
    ∃ v' rs, Vsri.run p v (regular (y + m) m n) = .ok (v', rs) ∧ Inv v' (h ++ regular (y + m) m n) ∧ v'.segs.length = v.segs.length := by
  intro n
  induction n with
  | zero => intro v h y I L _ _ D; exact ⟨v, [], rfl, by simpa [regular] using I, rfl⟩
  | succ n ih =>
    intro v h y I L hl hne D
    rw [regular_succ] at D ⊢
    have hm : 0 < m := by
      have e : h.getLastD 0 = h.getLast hne := by rw [List.getLastD_eq_getLast?, List.getLast?_eq_some_getLast hne]; rfl
      have := (List.pairwise_append.1 D.increasing).2.2 _ (List.getLast_mem hne) (y + m) (by simp)
      omega
    obtain ⟨v1, hu, I1, L1, hs1⟩ := locked_step (p := p) I L hm D.step
    obtain ⟨w, rs, hr, Iw, hw⟩ := ih v1 (h ++ [y + m]) (y + m) I1 L1 (by simp) (by simp) (by simpa using D)
    exact ⟨w, _, run_cons hu hr, by simpa using Iw, by omega⟩

/-- A stretch of regular sampling opens at most one segment, whatever the index was before. -/
theorem stretch_run {p : Profile} {m : Int} : ∀ (n : Nat) (v : Vsri) (h : List Int) (t : Int), Inv v h → DayHistory (h ++ regular t m n) →
    ∃ v' rs, Vsri.run p v (regular t m n) = .ok (v', rs) ∧ Inv v' (h ++ regular t m n) ∧ v'.segs.length ≤ v.segs.length + 1 := by
  intro n
  induction n with
  | zero => intro v h y I D; exact ⟨v, [], rfl, by simpa [regular] using I, by omega⟩
  | succ n ih =>
    intro v h t I D
    rw [regular_succ] at D ⊢
    obtain ⟨v1, hu, I1, k⟩ := update_kinds (p := p) I D.step
    have D1 : DayHistory ((h ++ [t]) ++ regular (t + m) m n) := by simpa using D
    have fin : ∀ {w : Vsri} {rs : List Bool}, Vsri.run p v1 (regular (t + m) m n) = .ok (w, rs) → Inv w ((h ++ [t]) ++ regular (t + m) m n) →
        w.segs.length ≤ v.segs.length + 1 → ∃ v' rs, Vsri.run p v (t :: regular (t + m) m n) = .ok (v', rs) ∧
          Inv v' (h ++ t :: regular (t + m) m n) ∧ v'.segs.length ≤ v.segs.length + 1 := by
      intro w rs hr Iw hw
      exact ⟨w, _, run_cons hu hr, by simpa using Iw, hw⟩
    have lock : Locked m t v1 → v1.segs.length ≤ v.segs.length + 1 → ∃ v' rs, Vsri.run p v (t :: regular (t + m) m n) = .ok (v', rs) ∧
          Inv v' (h ++ t :: regular (t + m) m n) ∧ v'.segs.length ≤ v.segs.length + 1 := by
      intro L hl
      obtain ⟨w, rs, hr, Iw, hw⟩ := locked_run (p := p) n v1 (h ++ [t]) t I1 L (by simp) (by simp) D1
      exact fin hr Iw (by omega)
    have go : v1.segs.length = v.segs.length → ∃ v' rs, Vsri.run p v (t :: regular (t + m) m n) = .ok (v', rs) ∧
          Inv v' (h ++ t :: regular (t + m) m n) ∧ v'.segs.length ≤ v.segs.length + 1 := by
      intro hl
      obtain ⟨w, rs, hr, Iw, hw⟩ := ih v1 (h ++ [t]) (t + m) I1 D1
      exact fin hr Iw (by omega)
    rcases k with ⟨he, hv⟩ | ⟨tt, s, ht, h0, hv⟩ | ⟨tt, s, ht, h0, hv⟩ | ⟨tt, s, ht, h0, hn, hv⟩
    · exact lock ⟨[], _, by rw [hv]; rfl, Or.inl ⟨rfl, rfl⟩⟩ (by rw [hv]; simp)
    · exact go (by rw [hv, ht]; simp)
    · exact go (by rw [hv, ht]; simp)
    · exact lock ⟨_, _, hv, Or.inl ⟨rfl, rfl⟩⟩ (by rw [hv, ht]; simp)

theorem stretches_run {p : Profile} : ∀ (l : List Stretch) (v : Vsri) (h : List Int), Inv v h → DayHistory (h ++ (l.map Stretch.points).flatten) →
    ∃ v' rs, Vsri.run p v (l.map Stretch.points).flatten = .ok (v', rs) ∧ v'.segs.length ≤ v.segs.length + l.length := by
  intro l
  induction l with
  | nil => intro v h I D; exact ⟨v, [], rfl, by simp⟩
  | cons s l ih =>
    intro v h I D
    simp only [List.map_cons, List.flatten_cons] at D ⊢
    rw [← List.append_assoc] at D
    obtain ⟨v1, rs1, h1, I1, hl1⟩ := stretch_run (p := p) s.count v h s.start I D.left
    obtain ⟨w, rs, h2, hl2⟩ := ih v1 _ I1 D
    have app : ∀ (a b : List Int) (u u1 u2 : Vsri) (r1 r2 : List Bool), Vsri.run p u a = .ok (u1, r1) → Vsri.run p u1 b = .ok (u2, r2) →
        Vsri.run p u (a ++ b) = .ok (u2, r1 ++ r2) := by
      intro a
      induction a with
      | nil => intro b u u1 u2 r1 r2 e1 e2; obtain ⟨rfl, rfl⟩ := Prod.mk.inj (Except.ok.inj e1); exact e2
      | cons y a iha =>
        intro b u u1 u2 r1 r2 e1 e2
        unfold Vsri.run at e1
        obtain ⟨⟨x, r⟩, q1, q2⟩ := bind_ok_iff.1 e1
        obtain ⟨⟨x2, r3⟩, q3, q4⟩ := bind_ok_iff.1 q2
        obtain ⟨rfl, rfl⟩ := Prod.mk.inj (Except.ok.inj q4)
        exact run_cons q1 (iha b _ _ _ _ _ q3 e2)
    exact ⟨w, _, app _ _ _ _ _ _ _ h1 h2, by simp only [List.length_cons]; omega⟩

/-- C91: a day sampled regularly but for `k - 1` interruptions, changes of rate or shifts needs at most `k` segments. -/
theorem C91_stretches (p : Profile) (l : List Stretch) (D : DayHistory (l.map Stretch.points).flatten) :
    ∃ v rs, Vsri.run p .new (l.map Stretch.points).flatten = .ok (v, rs) ∧ v.segs.length ≤ l.length := by
  obtain ⟨v, rs, h1, h2⟩ := stretches_run (p := p) l .new [] Inv_new (by simpa using D)
  exact ⟨v, rs, h1, by simpa [Vsri.new] using h2⟩

theorem Desc_half : ∀ {segs : List Seg} {x : Int} {h : List Int}, Desc x segs h → (∀ s ∈ segs.dropLast, 0 < s.m) → 2 * segs.length ≤ h.length + 1 := by
  intro segs
  induction segs with
  | nil => intro x h _ _; simp
  | cons s ss ih =>
    rintro x h ⟨blk, rest, rfl, ok, d⟩ hf
    have hp := ok.pos
    cases ss with
    | nil => simp; omega
    | cons t tt =>
      have h1 := ih d (fun u hu => hf u (by rw [List.dropLast_cons_of_ne_nil (by simp)]; exact List.mem_cons_of_mem _ hu))
      have hm : 0 < s.m := hf s (by rw [List.dropLast_cons_of_ne_nil (by simp)]; exact List.mem_cons_self)
      have h2 : 2 ≤ blk.length := by
        rcases ok.kind with ⟨_, e⟩ | ⟨e, _⟩
        · omega
        · exact e
      simp only [List.length_cons, List.length_append] at h1 ⊢
      omega

/-- C91: every segment but the last stands for at least two points: `n` points in increasing order give at most `(n + 1) / 2` segments. -/
theorem C91_half (p : Profile) (h : List Int) (H : StrictHistory h) (v : Vsri) (rs : List Bool) (hr : Vsri.run p .new h = .ok (v, rs)) :
    2 * v.segs.length ≤ h.length + 1 :=
  Desc_half (run_inv H hr).1.desc (run_inv H hr).1.full

theorem showI32_short {a : Int} {e : Nat} (h0 : 0 ≤ a) (h1 : a < (10 : Int) ^ e) (he : 0 < e) : (showI32 a).length ≤ e := by
  unfold showI32
  rw [if_neg (by omega)]
  apply Nat.toDigits_length 10 _ e he
  have : ((a.toNat : Nat) : Int) < ((10 ^ e : Nat) : Int) := by push_cast; omega
  exact_mod_cast this

theorem flush_short {v : Vsri} {e : Nat} (he : 0 < e) (h1 : 0 ≤ v.minTs ∧ v.minTs < (10 : Int) ^ e) (h2 : 0 ≤ v.maxTs ∧ v.maxTs < (10 : Int) ^ e)
    (hs : ∀ s ∈ v.segs, (0 ≤ s.m ∧ s.m < (10 : Int) ^ e) ∧ (0 ≤ s.x0 ∧ s.x0 < (10 : Int) ^ e) ∧ (0 ≤ s.y0 ∧ s.y0 < (10 : Int) ^ e) ∧ (0 ≤ s.n ∧ s.n < (10 : Int) ^ e)) :
    v.flush.length ≤ 2 * (e + 1) + 4 * (e + 1) * v.segs.length := by
  have aux : ∀ l : List Seg, (∀ s ∈ l, (0 ≤ s.m ∧ s.m < (10 : Int) ^ e) ∧ (0 ≤ s.x0 ∧ s.x0 < (10 : Int) ^ e) ∧ (0 ≤ s.y0 ∧ s.y0 < (10 : Int) ^ e) ∧ (0 ≤ s.n ∧ s.n < (10 : Int) ^ e)) →
      (l.flatMap fun s => segLine s ++ ['\n']).length ≤ 4 * (e + 1) * l.length := by
    intro l
    induction l with
    | nil => intro _; simp
    | cons s l ih =>
      intro hl
      obtain ⟨a, b, c, d⟩ := hl s List.mem_cons_self
      have i := ih fun t ht => hl t (List.mem_cons_of_mem _ ht)
      have a' := showI32_short a.1 a.2 he
      have b' := showI32_short b.1 b.2 he
      have c' := showI32_short c.1 c.2 he
      have d' := showI32_short d.1 d.2 he
      have hl : (segLine s).length ≤ 4 * e + 3 := by
        simp only [List.length_append, segLine, List.length_cons]
        omega
      simp only [List.flatMap_cons, List.length_append, List.length_cons, List.length_nil]
      rw [Nat.mul_add, Nat.mul_one]
      omega
  have a := showI32_short h1.1 h1.2 he
  have b := showI32_short h2.1 h2.2 he
  have c := aux v.segs hs
  unfold Vsri.flush
  simp only [List.length_append, List.length_cons]
  omega

/-- The numbers of an index built from points below `B` (at most `B` of them) are below `B`. -/
theorem fields_below {v : Vsri} {h : List Int} {B : Int} (I : Inv v h) (hb : ∀ y ∈ h, y < B) (hB : 0 < B) (hl : (h.length : Int) < B) :
    (0 ≤ v.minTs ∧ v.minTs < B) ∧ (0 ≤ v.maxTs ∧ v.maxTs < B) ∧
    ∀ s ∈ v.segs, (0 ≤ s.m ∧ s.m < B) ∧ (0 ≤ s.x0 ∧ s.x0 < B) ∧ (0 ≤ s.y0 ∧ s.y0 < B) ∧ (0 ≤ s.n ∧ s.n < B) := by
  refine ⟨?_, ?_, ?_⟩
  · rw [I.minTs]
    cases h with
    | nil => exact ⟨le_refl _, hB⟩
    | cons a l => exact ⟨(I.hist.range a (by simp)).1, hb a (by simp)⟩
  · rw [I.maxTs]
    by_cases hne : h = []
    · subst hne; exact ⟨le_refl _, hB⟩
    · have e : h.getLastD 0 = h.getLast hne := by rw [List.getLastD_eq_getLast?, List.getLast?_eq_some_getLast hne]; rfl
      rw [e]
      exact ⟨(I.hist.range _ (List.getLast_mem hne)).1, hb _ (List.getLast_mem hne)⟩
  · intro s hs
    obtain ⟨x, blk, a, b, rfl, hx, ok⟩ : ∃ (x : Int) (blk a b : List Int), h = a ++ blk ++ b ∧ x = a.length ∧ SegOK s x blk := by
      have d := I.desc
      obtain ⟨s1, s2, hsp⟩ := List.append_of_mem hs
      rw [hsp] at d
      obtain ⟨a, h2, rfl, d1, d2⟩ := Desc_append.1 d
      obtain ⟨blk, b, rfl, ok, d3⟩ := d2
      exact ⟨_, blk, a, b, by simp, by rw [Int.zero_add], ok⟩
    have hp := ok.pos
    have hy0 : s.y0 ∈ a ++ blk ++ b := by
      rw [← ok.first]; simp
    simp only [List.length_append] at hl
    push_cast at hl
    refine ⟨?_, ?_, ⟨(I.hist.range _ hy0).1, hb _ hy0⟩, ?_⟩
    · rcases ok.kind with ⟨_, e⟩ | ⟨e, e2⟩
      · omega
      · have h1 := ok.second (by omega)
        have h2 := hb blk[1] (by simp)
        have h3 := (I.hist.range _ hy0).1
        omega
    · rw [ok.x0, hx]; omega
    · rw [ok.n]; omega

/-- C91: the index file takes at most 22 bytes and 44 for each segment. -/
theorem C91_file (p : Profile) (h : List Int) (H : StrictHistory h) (v : Vsri) (rs : List Bool) (hr : Vsri.run p .new h = .ok (v, rs)) :
    v.flush.length ≤ 22 + 44 * v.segs.length := by
  have I := (run_inv H hr).1
  obtain ⟨a, b, c⟩ := fields_below (B := 10 ^ 10) I (fun y hy => by have := (H.range y hy).2; norm_num; omega) (by norm_num)
    (by have := H.few; norm_num; omega)
  exact flush_short (e := 10) (by omega) a b c

/-- C91: the index file of a day with `k` regular stretches takes at most 12 + 24 k bytes, however many samples there are. -/
theorem C91_day_file (p : Profile) (l : List Stretch) (D : DayHistory (l.map Stretch.points).flatten) :
    ∃ v rs, Vsri.run p .new (l.map Stretch.points).flatten = .ok (v, rs) ∧ v.flush.length ≤ 12 + 24 * l.length := by
  obtain ⟨v, rs, h1, h2⟩ := C91_stretches p l D
  refine ⟨v, rs, h1, ?_⟩
  have I := (run_inv D.strict h1).1
  obtain ⟨a, b, c⟩ := fields_below (B := 10 ^ 5) I (fun y hy => by have := (D.range y hy).2; norm_num; omega) (by norm_num) (by
    by_contra hc
    have h1 := idx_le D.increasing (fun z hz => (D.range z hz).1) 86400 (by omega)
    have h2 := D.range _ (List.getElem_mem (l := (l.map Stretch.points).flatten) (n := 86400) (by omega))
    omega)
  have := flush_short (e := 5) (by omega) a b c
  omega

/-- C91: on the other side, every index file takes at least 4 bytes and 8 for each segment. -/
theorem C91_at_least (v : Vsri) : 4 + 8 * v.segs.length ≤ v.flush.length := by
  have pos : ∀ a : Int, 1 ≤ (showI32 a).length := fun a => List.length_pos_of_ne_nil (show_ne_nil a)
  have aux : ∀ l : List Seg, 8 * l.length ≤ (l.flatMap fun s => segLine s ++ ['\n']).length := by
    intro l
    induction l with
    | nil => simp
    | cons s l ih =>
      have a := pos s.m
      have b := pos s.x0
      have c := pos s.y0
      have d := pos s.n
      simp only [List.flatMap_cons, List.length_append, List.length_cons, List.length_nil, segLine] at ih ⊢
      omega
  have a := pos v.minTs
  have b := pos v.maxTs
  have c := aux v.segs
  unfold Vsri.flush
  simp only [List.length_append, List.length_cons]
  omega

/-- The README's "5Bytes for 64k samples" (vsri/README.md:32) is never true: an index of one sample or more takes at least 12 bytes. -/
theorem C91_refuted_readme (p : Profile) (h : List Int) (H : StrictHistory h) (hne : h ≠ []) (v : Vsri) (rs : List Bool) (hr : Vsri.run p .new h = .ok (v, rs)) :
    12 ≤ v.flush.length := by
  have I := (run_inv H hr).1
  have := C91_at_least v
  have : v.segs ≠ [] := fun h0 => hne (by have := I.desc; rw [h0] at this; exact this)
  have := List.length_pos_of_ne_nil this
  omega

/-- Two regular stretches at 15 s with an interruption: the example of vsri/README.md; two segments. -/
example : DayHistory (([⟨55745, 15, 166⟩, ⟨58505, 15, 63⟩] : List Stretch).map Stretch.points).flatten := by
  constructor
  · decide +kernel
  · decide +kernel
example : okAnd (Vsri.run .debug .new (([⟨55745, 15, 166⟩, ⟨58505, 15, 63⟩] : List Stretch).map Stretch.points).flatten)
    (fun q => decide (q.1 = ⟨55745, 59435, [⟨15, 0, 55745, 166⟩, ⟨15, 166, 58505, 63⟩]⟩)) = true := by decide +kernel
/-- The number of segments can reach half the number of points (every second interval is different), and `k` stretches can need `k` segments. -/
example : okAnd (Vsri.run .debug .new [0, 1, 100, 101, 300, 301]) (fun q => q.1.segs.length == 3) = true := by decide

end Atsc
