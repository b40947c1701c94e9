import Verif.Props.VsriNear
import Verif.Lemmas.Stream
/- C83: indexing the timestamps an index reports gives the same index again; C84: lookups keep the order of their arguments. -/
namespace Atsc
open Vsri

/-! ### C83 -/

/-- All timestamps of a list of segments. -/
def segsTimes (segs : List Seg) : List Int := (segs.map Seg.times).flatten

theorem segsTimes_append (a b : List Seg) : segsTimes (a ++ b) = segsTimes a ++ segsTimes b := by
  unfold segsTimes; rw [List.map_append, List.flatten_append]

theorem times_one (x y : Int) : Seg.times ⟨0, x, y, 1⟩ = [y] := by
  unfold Seg.times; simp [List.range_succ]

theorem times_two (m x y : Int) : Seg.times ⟨m, x, y, 2⟩ = [y, y + m] := by
  unfold Seg.times; simp [List.range_succ]; omega

theorem times_succ (s : Seg) (h : 0 ≤ s.n) : Seg.times { s with n := s.n + 1 } = s.times ++ [s.y0 + s.m * s.n] := by
  obtain ⟨k, hk⟩ := Int.eq_ofNat_of_zero_le h
  unfold Seg.times
  dsimp only
  rw [hk]
  have e1 : ((k : Int) + 1).toNat = k + 1 := by omega
  have e2 : ((k : Int)).toNat = k := by omega
  rw [e1, e2, List.range_succ, List.map_append, List.map_singleton, Int.mul_comm, Int.add_comm]

theorem segsTimes_one (s : Seg) : segsTimes [s] = s.times := by simp [segsTimes]

/-- If the fit test says yes, the product it needs is within range. -/
theorem fits_small {p : Profile} {v : Vsri} {y : Int} (hm : 0 < v.current.m) (hx : 0 ≤ v.current.x0) (hn : 0 < v.current.n)
    (hc : v.current.n + v.current.x0 < 2147483648) (h : v.fitsSegment p y = .ok true) :
    v.current.m * v.current.n + v.current.m * v.current.x0 < 2147483648 := by
  generalize hs : v.current = s at *
  unfold Vsri.fitsSegment Vsri.calculateB at h
  rw [hs] at h
  obtain ⟨b, -, h⟩ := bind_ok_iff.1 h
  obtain ⟨d, h3, h⟩ := bind_ok_iff.1 h
  obtain ⟨x, h4, h⟩ := bind_ok_iff.1 h
  obtain ⟨n, h5, h⟩ := bind_ok_iff.1 h
  rw [i32div_pos hm] at h4
  have h4 := Except.ok.inj h4
  rw [i32op_in (p := p) (a := s.n + s.x0) (by unfold InI32; omega)] at h5
  have h5 := Except.ok.inj h5
  have hq : d.tdiv s.m = s.n + s.x0 := by
    have := Except.ok.inj h
    rw [h4, h5]
    simpa using this
  have hd0 : 0 ≤ d := by
    by_contra hneg
    have h5 : 0 ≤ (-d).tdiv s.m := Int.tdiv_nonneg (by omega) hm.le
    rw [Int.neg_tdiv] at h5
    omega
  rw [Int.tdiv_eq_ediv_of_nonneg hd0] at hq
  have e1 : s.m * (s.n + s.x0) ≤ d := by rw [← hq]; exact Int.mul_ediv_self_le (by omega)
  have hdr := (i32op_ok h3).1
  rw [← Int.mul_add]
  unfold InI32 at hdr
  omega

/-- One point added to an index, and the corresponding reported timestamp added to an index with the same segments. -/
theorem reindex_step {p : Profile} {v v' w : Vsri} {h : List Int} {y : Int} (I : Inv v h) (hy : h ≠ [] → h.getLastD 0 < y) (h0 : 0 ≤ y)
    (h2 : y < 2147483648) (h3 : h.length + 1 < 2147483648) (hu : v.update p y = .ok (v', true))
    (hw : w.segs = v.segs) (hwm : w.minTs = v.minTs) (hwx : w.maxTs = (segsTimes v.segs).getLastD 0) (hwv : w.maxTs ≤ v.maxTs) :
    ∃ y', segsTimes v'.segs = segsTimes v.segs ++ [y'] ∧ w.update p y' = .ok ({ v' with maxTs := y' }, true) ∧ y' ≤ v'.maxTs := by
  have hlt := lt_of_getLastD I.hist.increasing hy
  have hnot : ¬ y < v.maxTs := by
    rw [I.maxTs]
    by_cases hne : h = []
    · subst hne; simpa using h0
    · have := hy hne; omega
  have hnotw : ¬ y < w.maxTs := by omega
  unfold Vsri.update at hu
  rw [if_neg hnot] at hu
  dsimp only at hu
  by_cases hseg : v.segs = []
  · rw [if_pos (by rw [hseg]; rfl)] at hu
    obtain ⟨s, q1, q2⟩ := bind_ok_iff.1 hu
    unfold Vsri.fakeSegment at q1
    obtain ⟨x, r1, r2⟩ := bind_ok_iff.1 q1
    obtain rfl := Except.ok.inj r2
    obtain ⟨rfl, -⟩ := Prod.mk.inj (Except.ok.inj q2)
    refine ⟨y, ?_, ?_, le_refl _⟩
    · dsimp only; rw [segsTimes_append, segsTimes_one, times_one]
    · unfold Vsri.update
      rw [if_neg hnotw]
      dsimp only
      rw [if_pos (by rw [hw, hseg]; rfl)]
      unfold Vsri.fakeSegment
      have hc : ({ minTs := y, maxTs := y, segs := w.segs } : Vsri).current = ({ minTs := y, maxTs := y, segs := v.segs } : Vsri).current := by
        unfold Vsri.current; rw [hw]
      rw [hc, r1]
      simp only [bind, Except.bind]
      rw [hw]
  · obtain ⟨ss, s, g, blk, hs, rfl, d1, ok, hfull⟩ := I.last hseg
    have hlen : v.segs.length ≠ 0 := by simpa using hseg
    rw [if_neg hlen] at hu
    have hcur : ({ v with maxTs := y } : Vsri).current = s := by unfold Vsri.current; simp [hs]
    have hcurw : ∀ z, ({ w with maxTs := z } : Vsri).current = s := by intro z; unfold Vsri.current; simp [hs, hw]
    have hlenw : w.segs.length ≠ 0 := by rw [hw]; exact hlen
    have hblk : blk ≠ [] := by
      rintro rfl
      have := ok.head; simp at this
    have hpos : 0 < blk.length := List.length_pos_iff.2 hblk
    have hy0mem : s.y0 ∈ g ++ blk := List.mem_append_right _ (List.mem_of_mem_head? (by rw [ok.head]; rfl))
    have hy0 := I.hist.range _ hy0mem
    have hy0y := hlt _ hy0mem
    have hcount : s.n + s.x0 = ((g ++ blk).length : Int) := by
      rw [ok.n, ok.x0]; simp; omega
    have hfew : ((g ++ blk).length : Int) + 1 < 2147483648 := by exact_mod_cast h3
    have hx00 : 0 ≤ s.x0 := by rw [ok.x0]; omega
    have hn0 : 0 < s.n := by rw [ok.n]; omega
    by_cases hfake : ({ v with maxTs := y } : Vsri).isFake = true
    · rw [if_pos hfake] at hu
      have hm0 : s.m = 0 := by
        unfold Vsri.isFake at hfake; rw [hcur] at hfake; simpa using hfake
      have hn1 : s.n = 1 := by
        rcases ok.kind with ⟨k1, _⟩ | ⟨_, k1⟩
        · rw [ok.n, k1]; rfl
        · omega
      obtain ⟨q, q1, q2⟩ := bind_ok_iff.1 hu
      unfold Vsri.generateSegment at q1
      rw [hcur, if_neg (by omega)] at q1
      obtain ⟨m, r1, r2⟩ := bind_ok_iff.1 q1
      have hm := (i32op_ok r1).2 (by unfold InI32; omega)
      have r2 := Except.ok.inj r2
      obtain ⟨rfl, -⟩ := Prod.mk.inj (Except.ok.inj q2)
      have hs1 : s = ⟨0, s.x0, s.y0, 1⟩ := by rw [← hm0, ← hn1]
      refine ⟨y, ?_, ?_, le_refl _⟩
      · dsimp only
        rw [hs, ← r2]
        simp only [List.length_append, List.length_singleton, Nat.add_sub_cancel, List.set_append_right _ _ (le_refl _), Nat.sub_self, List.set_cons_zero]
        rw [segsTimes_append, segsTimes_append, segsTimes_one, segsTimes_one, times_two, hs1, times_one, List.append_assoc, hm]
        simp
      · unfold Vsri.update
        rw [if_neg hnotw]
        dsimp only
        rw [if_neg hlenw, if_pos (by unfold Vsri.isFake; rw [hcurw, hm0]; rfl)]
        unfold Vsri.generateSegment
        rw [hcurw, if_neg (by omega), r1]
        simp only [bind, Except.bind]
        rw [hw, hwm, ← r2]
    · rw [if_neg hfake] at hu
      have hm : 0 < s.m := by
        rcases ok.kind with ⟨_, h1⟩ | ⟨_, h1⟩
        · exfalso; apply hfake; unfold Vsri.isFake; rw [hcur, h1]; rfl
        · exact h1
      obtain ⟨r, hf, hu⟩ := bind_ok_iff.1 hu
      cases r with
      | true =>
        rw [if_pos rfl] at hu
        obtain ⟨n, q1, q2⟩ := bind_ok_iff.1 hu
        rw [hcur] at q1 q2
        have hn := (i32op_ok q1).2 (by unfold InI32; omega)
        obtain ⟨rfl, -⟩ := Prod.mk.inj (Except.ok.inj q2)
        have hfit := fits_true (p := p) (v := { v with maxTs := y }) (y := y) (by rw [hcur]; exact hm) (by rw [hcur]; exact hx00)
          (by rw [hcur]; omega) (by rw [hcur]; omega) (by rw [hcur]; exact hy0.1) (by rw [hcur]; omega) h2
          (by rw [hcur]; exact hn0) hf
        have hsm := fits_small (p := p) (v := { v with maxTs := y }) (y := y) (by rw [hcur]; exact hm) (by rw [hcur]; exact hx00)
          (by rw [hcur]; exact hn0) (by rw [hcur]; omega) hf
        rw [hcur] at hfit hsm
        have hmn : 0 < s.m * s.n := Int.mul_pos hm hn0
        have hle : ¬ s.y0 + s.m * s.n < w.maxTs := by
          rw [hwx, hs, segsTimes_append, segsTimes_one]
          have e : s = { ({ s with n := s.n - 1 } : Seg) with n := ({ s with n := s.n - 1 } : Seg).n + 1 } := by
            cases s; simp
          rw [e, times_succ _ (by dsimp only; omega)]
          rw [← List.append_assoc]
          simp only [List.getLastD_concat]
          have : s.m * (s.n - 1) = s.m * s.n - s.m := by ring
          rw [this]
          have e3 : s.n - 1 + 1 = s.n := by ring
          rw [e3]
          omega
        refine ⟨s.y0 + s.m * s.n, ?_, ?_, hfit.1⟩
        · dsimp only
          rw [hs, hn]
          simp only [List.length_append, List.length_singleton, Nat.add_sub_cancel, List.set_append_right _ _ (le_refl _), Nat.sub_self, List.set_cons_zero]
          rw [segsTimes_append, segsTimes_append, segsTimes_one, segsTimes_one, times_succ _ (by omega), List.append_assoc]
        · have hfw : ({ w with maxTs := s.y0 + s.m * s.n } : Vsri).fitsSegment p (s.y0 + s.m * s.n) = .ok true := by
            rw [fits_exact (p := p) (by rw [hcurw]; exact hm) (by rw [hcurw]; exact hx00)
              (by rw [hcurw]; omega) (by rw [hcurw]; omega) (by rw [hcurw]; exact hy0.1) (by rw [hcurw]; omega) (by omega) (by rw [hcurw]; omega)]
            rw [hcurw]
            have e3 : s.m * (s.n + 1) = s.m * s.n + s.m := by ring
            rw [e3]
            congr 1
            rw [decide_eq_true_iff]
            omega
          unfold Vsri.update
          rw [if_neg hle]
          dsimp only
          rw [if_neg hlenw, if_neg (by unfold Vsri.isFake; rw [hcurw]; simp; omega), hfw]
          simp only [bind, Except.bind, if_true]
          rw [hcurw, q1]
          simp only
          rw [hw, hwm]
      | false =>
        rw [if_neg (by decide)] at hu
        obtain ⟨q, q1, q2⟩ := bind_ok_iff.1 hu
        unfold Vsri.fakeSegment at q1
        rw [hcur] at q1
        obtain ⟨x, r1, r2⟩ := bind_ok_iff.1 q1
        obtain rfl := Except.ok.inj r2
        obtain ⟨rfl, -⟩ := Prod.mk.inj (Except.ok.inj q2)
        refine ⟨y, ?_, ?_, le_refl _⟩
        · dsimp only; rw [segsTimes_append, segsTimes_one, times_one]
        · have hfw : ({ w with maxTs := y } : Vsri).fitsSegment p y = .ok false := by
            rw [← hf]
            unfold Vsri.fitsSegment
            rw [hcur, hcurw]
          unfold Vsri.update
          rw [if_neg hnotw]
          dsimp only
          rw [if_neg hlenw, if_neg (by unfold Vsri.isFake; rw [hcurw]; simp; omega), hfw]
          unfold Vsri.fakeSegment
          rw [hcurw]
          simp only [bind, Except.bind, if_neg (show ¬ (false = true) by decide)]
          rw [r1]
          simp only
          rw [hw, hwm]

theorem reindex_run {p : Profile} : ∀ (ys : List Int) (v w : Vsri) (h : List Int) (v' : Vsri) (rs : List Bool), Inv v h → StrictHistory (h ++ ys) →
    w = { v with maxTs := (segsTimes v.segs).getLastD 0 } → w.maxTs ≤ v.maxTs → Vsri.run p v ys = .ok (v', rs) →
    ∃ ys', segsTimes v'.segs = segsTimes v.segs ++ ys' ∧
      Vsri.run p w ys' = .ok ({ v' with maxTs := (segsTimes v'.segs).getLastD 0 }, List.replicate ys'.length true) := by
  intro ys
  induction ys with
  | nil =>
    intro v w h v' rs I H hw hle hr
    obtain ⟨rfl, -⟩ := Prod.mk.inj (Except.ok.inj hr)
    exact ⟨[], by simp, by rw [← hw]; rfl⟩
  | cons y ys ih =>
    intro v w h v' rs I H hw hle hr
    have hmem : y ∈ h ++ y :: ys := by simp
    have hrg := H.range y hmem
    have hlast : h ≠ [] → h.getLastD 0 < y := by
      intro hne
      have e : h.getLastD 0 = h.getLast hne := by rw [List.getLastD_eq_getLast?, List.getLast?_eq_some_getLast hne]; rfl
      rw [e]
      exact (List.pairwise_append.1 H.increasing).2.2 _ (List.getLast_mem hne) y (by simp)
    have hfew : h.length + 1 < 2147483648 := by have := H.few; simp at this; omega
    rcases update_step (p := p) I hlast hrg.1 hrg.2 hfew with ⟨v1, h1, I'⟩ | ⟨-, -, he⟩
    · unfold Vsri.run at hr
      rw [h1, ok_bind] at hr
      obtain ⟨⟨v2, rs2⟩, q1, q2⟩ := bind_ok_iff.1 hr
      obtain ⟨rfl, -⟩ := Prod.mk.inj (Except.ok.inj q2)
      obtain ⟨y', e1, e2, e3⟩ := reindex_step (w := w) I hlast hrg.1 hrg.2 hfew h1 (by rw [hw]) (by rw [hw]) (by rw [hw]) hle
      have H' : StrictHistory ((h ++ [y]) ++ ys) := by simpa using H
      obtain ⟨ys', f1, f2⟩ := ih v1 { v1 with maxTs := y' } (h ++ [y]) v2 rs2 I' H' (by rw [e1]; simp) e3 q1
      refine ⟨y' :: ys', by rw [f1, e1]; simp, ?_⟩
      unfold Vsri.run
      rw [e2]
      simp only [bind, Except.bind]
      rw [f2]
      rfl
    · unfold Vsri.run at hr
      rw [he] at hr
      cases hr

/-- C83: the timestamps an index reports are strictly increasing, and indexing them gives the index back: same segments, same minimum; its maximum is the
last reported timestamp. -/
theorem C83_reindex (p : Profile) (h : List Int) (H : StrictHistory h) (v : Vsri) (rs : List Bool) (hr : Vsri.run p .new h = .ok (v, rs)) :
    ∃ ts, v.allTimestamps p = .ok ts ∧ ts.length = h.length ∧ ts.Pairwise (· < ·) ∧
      Vsri.run p .new ts = .ok ({ minTs := v.min, maxTs := ts.getLastD 0, segs := v.segs }, List.replicate ts.length true) := by
  obtain ⟨I, -⟩ := run_inv H hr
  obtain ⟨ts, t1, T⟩ := times_of (p := p) I
  have hts : ts = segsTimes v.segs := by
    obtain ⟨q1, -, -⟩ := Desc_times (p := p) I.desc H.range
    unfold allTimestamps at t1
    rw [q1] at t1
    exact (Except.ok.inj t1).symm
  obtain ⟨ys', e1, e2⟩ := reindex_run h .new .new [] v rs Inv_new (by simpa using H) rfl (le_refl _) hr
  have e1' : ts = ys' := by rw [hts, e1]; rfl
  refine ⟨ts, t1, T.len, ?_, ?_⟩
  · exact List.pairwise_iff_getElem.2 fun i j hi hj hij => times_lt I T i j hi hj hij
  · rw [e1', e2, ← e1', hts]; rfl

/-- C83: hence reporting and indexing again reaches a fixed point at once: the index made from the reported timestamps reports the same timestamps. -/
theorem C83_stable (p : Profile) (h : List Int) (H : StrictHistory h) (v w : Vsri) (rs rs' : List Bool) (ts : List Int) (hr : Vsri.run p .new h = .ok (v, rs))
    (ht : v.allTimestamps p = .ok ts) (hr' : Vsri.run p .new ts = .ok (w, rs')) : w.allTimestamps p = .ok ts ∧ w.segs = v.segs ∧ w.max ≤ v.max := by
  obtain ⟨ts', t1, t2, t3, t4⟩ := C83_reindex p h H v rs hr
  rw [ht] at t1
  obtain rfl := Except.ok.inj t1
  rw [hr'] at t4
  obtain ⟨rfl, -⟩ := Prod.mk.inj (Except.ok.inj t4)
  refine ⟨ht, rfl, ?_⟩
  obtain ⟨ts', q1, q2, q3⟩ := C43_timestamps p h H v rs hr
  rw [ht] at q1
  obtain rfl := Except.ok.inj q1
  obtain ⟨I, -⟩ := run_inv H hr
  show ts.getLastD 0 ≤ v.maxTs
  rw [I.maxTs]
  by_cases hne : ts = []
  · subst hne
    have : h = [] := List.eq_nil_of_length_eq_zero (by simpa using q2.symm)
    rw [this]
  · have hne' : h ≠ [] := by rintro rfl; exact hne (List.eq_nil_of_length_eq_zero q2)
    have a1 : ts.getLastD 0 = ts.getLast hne := by rw [List.getLastD_eq_getLast?, List.getLast?_eq_some_getLast hne]; rfl
    have a2 : h.getLastD 0 = h.getLast hne' := by rw [List.getLastD_eq_getLast?, List.getLast?_eq_some_getLast hne']; rfl
    have hp : 0 < ts.length := List.length_pos_iff.2 hne
    rw [a1, a2, List.getLast_eq_getElem, List.getLast_eq_getElem]
    have := (q3 (ts.length - 1) (by omega) (by omega)).1
    simpa [q2] using this

/-- A history with a late point and a change of interval: 0, 10, 29, 100, 107 is reported as 0, 10, 20, 100, 107, and that gives the same two segments. -/
example (p : Profile) : okAnd (Vsri.run p .new [0, 10, 29, 100, 107]) (fun q => q.1.allTimestamps p = .ok [0, 10, 20, 100, 107] ∧
    okAnd (Vsri.run p .new [0, 10, 20, 100, 107]) (fun q' => q'.1 = q.1 ∧ q.1.segs.length = 2)) = true := by cases p <;> decide
example : StrictHistory [0, 10, 29, 100, 107] := ⟨by decide, by decide, by decide⟩

/-! ### C84 -/

/-- What a successful lookup found: the last sample whose reported timestamp is not after `t`. -/
theorem found_last {p : Profile} {h : List Int} (H : DayHistory h) {v : Vsri} {rs : List Bool} (hr : Vsri.run p .new h = .ok (v, rs))
    {ts : List Int} (hts : v.allTimestamps p = .ok ts) {t i : Int} (hg : v.getSample p t = .ok (some i)) : ∃ k : Nat, i = k ∧ LastNotAfter ts t k := by
  obtain ⟨I, -⟩ := run_inv H.strict hr
  obtain ⟨ts', ht', T⟩ := times_of (p := p) I
  rw [hts] at ht'
  obtain rfl := Except.ok.inj ht'
  have hmono := times_lt I T
  obtain ⟨l1, l2, l3⟩ := C44_lookup p h H v rs hr t
  by_cases hsp : ∃ s ∈ v.segs, s.Spans t
  · obtain ⟨s, hs, hsp⟩ := hsp
    have hn : s.n ≠ 1 := by
      intro hn
      rw [l2 s hs hsp hn] at hg
      cases hg
    rw [l1 s hs hsp hn] at hg
    have hi := Option.some.inj (Except.ok.inj hg)
    obtain ⟨g, b, g', hgb, ok⟩ := Desc_mem I.desc hs
    have hm : 0 < s.m := by
      rcases ok.kind with ⟨k1, _⟩ | ⟨_, k2⟩
      · exfalso; apply hn; rw [ok.n, k1]; rfl
      · exact k2
    have hx0 : 0 ≤ s.x0 := by rw [ok.x0]; omega
    obtain ⟨sp1, sp2⟩ := hsp
    unfold Seg.last at sp2
    have hq0 : 0 ≤ (t - s.y0) / s.m := Int.ediv_nonneg (by omega) hm.le
    have e1 : s.m * ((t - s.y0) / s.m) ≤ t - s.y0 := Int.mul_ediv_self_le (by omega)
    have e2 : t - s.y0 < s.m * ((t - s.y0) / s.m) + s.m := Int.lt_mul_ediv_self_add hm
    have hqn : (t - s.y0) / s.m ≤ s.n - 1 := by
      by_contra hc
      have : s.m * s.n ≤ s.m * ((t - s.y0) / s.m) := Int.mul_le_mul_of_nonneg_left (by omega) hm.le
      have e3 : s.m * (s.n - 1) = s.m * s.n - s.m := by ring
      omega
    generalize hqd : (t - s.y0) / s.m = q at *
    have hk : ((i.toNat : Nat) : Int) = i := by omega
    have hhas : s.Has (i.toNat : Nat) := by unfold Seg.Has; omega
    have hlen : i.toNat < ts.length := by
      have h1 : s.x0 + s.n ≤ (h.length : Int) := by
        rw [hgb, ok.x0, ok.n]; simp
      have h2 := T.len
      unfold Seg.Has at hhas
      omega
    have f1 := T.formula _ hlen s hs hhas
    have f1' : ts[i.toNat] = s.y0 + s.m * q := by
      rw [f1, hk]
      have : i - s.x0 = q := by omega
      rw [this]
    refine ⟨i.toNat, hk.symm, hlen, by omega, fun j hj hij => ?_⟩
    by_cases hsame : s.Has (j : Nat)
    · have f2 := T.formula j hj s hs hsame
      have : s.m * (q + 1) ≤ s.m * ((j : Int) - s.x0) := Int.mul_le_mul_of_nonneg_left (by omega) hm.le
      have e4 : s.m * (q + 1) = s.m * q + s.m := by ring
      omega
    · -- `j` lies after the segment, and the segment's last sample is not before `t`
      have hlast : ∃ k : Nat, k < j ∧ s.Has (k : Nat) ∧ (k : Int) = s.x0 + s.n - 1 := by
        refine ⟨(s.x0 + s.n - 1).toNat, ?_, ?_, ?_⟩ <;> unfold Seg.Has at * <;> omega
      obtain ⟨k, k1, k2, k3⟩ := hlast
      have f3 := T.formula k (by omega) s hs k2
      have := hmono k j (by omega) hj k1
      have e5 : (k : Int) - s.x0 = s.n - 1 := by omega
      rw [e5] at f3
      omega
  · rw [l3 fun s hs hc => hsp ⟨s, hs, hc⟩] at hg
    cases hg

theorem last_mono {ts : List Int} {t t' : Int} {k k' : Nat} (h : LastNotAfter ts t k) (h' : LastNotAfter ts t' k') (ht : t ≤ t') : k ≤ k' := by
  obtain ⟨h1, h2, h3⟩ := h
  obtain ⟨h1', h2', h3'⟩ := h'
  by_contra hc
  have := h3' k h1 (by omega)
  omega

/-- C84: looking up a later time never gives an earlier sample, and what is found is a sample of the index. -/
theorem C84_sample (p : Profile) (h : List Int) (H : DayHistory h) (v : Vsri) (rs : List Bool) (hr : Vsri.run p .new h = .ok (v, rs))
    (t t' i i' : Int) (ht : t ≤ t') (h1 : v.getSample p t = .ok (some i)) (h2 : v.getSample p t' = .ok (some i')) :
    0 ≤ i ∧ i ≤ i' ∧ i' < h.length := by
  obtain ⟨ts, t1, t2, -⟩ := C43_timestamps p h H.strict v rs hr
  obtain ⟨k, rfl, q⟩ := found_last H hr t1 h1
  obtain ⟨k', rfl, q'⟩ := found_last H hr t1 h2
  have := last_mono q q' ht
  obtain ⟨b, -⟩ := q'
  omega

/-- C84 for `get_this_or_previous`, from the first point up to the last reported timestamp. -/
theorem C84_previous_inside (p : Profile) (h : List Int) (H : DayHistory h) (v : Vsri) (rs : List Bool) (hr : Vsri.run p .new h = .ok (v, rs))
    (ts : List Int) (hts : v.allTimestamps p = .ok ts) (t t' : Int) (hmin : v.min ≤ t) (ht : t ≤ t') (hlast : ∃ y ∈ ts, t' < y) :
    ∃ k k' : Nat, v.thisOrPrevious p t = .ok (some (k : Int)) ∧ v.thisOrPrevious p t' = .ok (some (k' : Int)) ∧ k ≤ k' ∧ k' < h.length := by
  obtain ⟨y, hy, hy'⟩ := hlast
  obtain ⟨k, a1, a2⟩ := C76_previous_inside p h H v rs hr ts hts t hmin ⟨y, hy, by omega⟩
  obtain ⟨k', b1, b2⟩ := C76_previous_inside p h H v rs hr ts hts t' (by omega) ⟨y, hy, hy'⟩
  refine ⟨k, k', a1, b1, last_mono a2 b2 ht, ?_⟩
  obtain ⟨ts', t1, t2, -⟩ := C43_timestamps p h H.strict v rs hr
  rw [hts] at t1
  obtain rfl := Except.ok.inj t1
  obtain ⟨b, -⟩ := b2
  omega

example : DayHistory [0, 10, 29, 100, 107] := ⟨by decide, by decide⟩
example (p : Profile) : okAnd (Vsri.run p .new [0, 10, 29, 100, 107]) (fun q => q.1.getSample p 15 = .ok (some 1) ∧ q.1.getSample p 103 = .ok (some 3)) = true := by
  cases p <;> decide

/-- C84 fails for `get_this_or_next`: at 50 it gives sample 4, at 100 sample 2. -/
theorem C84_refuted_next (p : Profile) : okAnd (Vsri.run p .new [0, 10, 100, 110, 200, 210])
    (fun q => q.1.thisOrNext p 50 = .ok (some 4) ∧ q.1.thisOrNext p 100 = .ok (some 2)) = true := by cases p <;> decide

/-- C84 fails for `get_time`: it puts sample 3 at 3100 and sample 4 at 1204. -/
theorem C84_refuted_time (p : Profile) : okAnd (Vsri.run p .new [0, 1, 100, 1100, 1200, 1201])
    (fun q => q.1.getTime p 3 = .ok (some 3100) ∧ q.1.getTime p 4 = .ok (some 1204)) = true := by cases p <;> decide

end Atsc
