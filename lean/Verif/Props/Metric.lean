import Verif.Model.Metric
import Verif.Spec.Day
import Verif.Props.Cli
import Verif.Props.Wavbrro
import Verif.Props.VsriLookup
import Verif.Props.VsriFile
/- C56, C63: csv-compressor. -/
namespace Atsc
open Vsri

/-! ### C56 -/

theorem dayElapsed_daySecond {valid : Int → Bool} {ms t : Int} (h : dayElapsedSeconds valid (ms.tdiv 1000) = .ok t) : t = daySecond ms := by
  by_cases hv : valid (ms.tdiv 1000) = true
  · obtain ⟨s, h1, h2, h3, h4⟩ := C51_day_seconds valid (ms.tdiv 1000) hv
    rw [h1] at h
    rw [← Except.ok.inj h]
    unfold daySecond; omega
  · rw [C51_invalid_panics valid _ (by simpa using hv)] at h; cases h

theorem append_split {p : Profile} {valid : Int → Bool} : ∀ {ss : List MSample} {m m' : Metric} {r : Option MSample},
    Metric.appendSamples p valid m ss = .ok (m', r) → ∃ pre post, ss = pre ++ post ∧
      WavBrro.addAll p m.wbro (pre.map (·.value)) = .ok m'.wbro ∧
      Vsri.run p m.vsri (pre.map fun s => daySecond s.timestamp) = .ok (m'.vsri, List.replicate pre.length true) ∧
      (r = none → post = []) ∧ (∀ s, r = some s → post.head? = some s ∧ daySecond s.timestamp < m'.vsri.max)
  | [], m, m', r, h => by
    rw [Metric.appendSamples] at h
    have h1 := congrArg Prod.fst (Except.ok.inj h)
    have h2 := congrArg Prod.snd (Except.ok.inj h)
    simp only at h1 h2
    subst h1 h2
    exact ⟨[], [], rfl, rfl, rfl, fun _ => rfl, fun s hs => by cases hs⟩
  | s :: ss, m, m', r, h => by
    rw [Metric.appendSamples] at h
    cases hd : dayElapsedSeconds valid (s.timestamp.tdiv 1000) with
    | error e => rw [hd] at h; cases h
    | ok t =>
      rw [hd] at h
      have ht := dayElapsed_daySecond hd
      simp only [bind, Except.bind] at h
      cases hu : m.vsri.update p t with
      | error e => rw [hu] at h; cases h
      | ok vr =>
        obtain ⟨v, okk⟩ := vr
        rw [hu] at h
        simp only at h
        obtain ⟨c1, c2, c3⟩ := C40_update p m.vsri v t okk hu
        cases okk with
        | false =>
          rw [if_neg (by simp)] at h
          have h1 := congrArg Prod.fst (Except.ok.inj h)
          have h2 := congrArg Prod.snd (Except.ok.inj h)
          simp only at h1 h2
          subst h1 h2
          have hv := c2 rfl
          subst hv
          refine ⟨[], s :: ss, rfl, rfl, rfl, (fun hc => nomatch hc), fun s' hs' => ?_⟩
          have := Option.some.inj hs'
          subst this
          exact ⟨rfl, by rw [← ht]; exact c1.1 rfl⟩
        | true =>
          rw [if_pos rfl] at h
          cases hw : m.wbro.addSample p s.value with
          | error e => rw [hw] at h; cases h
          | ok w =>
            rw [hw] at h
            simp only at h
            obtain ⟨pre, post, e1, e2, e3, e4, e5⟩ := append_split h
            refine ⟨s :: pre, post, by rw [e1]; rfl, ?_, ?_, e4, e5⟩
            · rw [List.map_cons, WavBrro.addAll, hw]; exact e2
            · rw [List.map_cons, Vsri.run, ← ht, hu]
              simp only [bind, Except.bind]
              rw [e3]; rfl

theorem accepted_all : ∀ (l : List Int), acceptedPoints l (List.replicate l.length true) = l
  | [] => rfl
  | a :: l => by rw [List.length_cons, List.replicate_succ, acceptedPoints, if_pos rfl, accepted_all l]

/-- **C56.** Appending samples to a new metric ingests a prefix of them: the container holds exactly the values of the prefix, the index is the one
built from exactly their day times, all accepted.  The prefix is the whole list when the call returns `Ok`; otherwise the error names the first
sample after the prefix and its day time is before that of a sample of the prefix. -/
theorem C56_ingest (p : Profile) (valid : Int → Bool) (ss : List MSample) (m : Metric) (r : Option MSample)
    (h : Metric.appendSamples p valid .default ss = .ok (m, r)) :
    ∃ pre post, ss = pre ++ post ∧ m.wbro.getSamples = pre.map (·.value) ∧
      Vsri.run p .new (pre.map fun s => daySecond s.timestamp) = .ok (m.vsri, List.replicate pre.length true) ∧
      (r = none → post = []) ∧ (∀ s, r = some s → post.head? = some s ∧ ∃ q ∈ pre, daySecond s.timestamp < daySecond q.timestamp) := by
  obtain ⟨pre, post, e1, e2, e3, e4, e5⟩ := append_split h
  refine ⟨pre, post, e1, (C37_add_get p _ _ e2).1, e3, e4, fun s hs => ⟨(e5 s hs).1, ?_⟩⟩
  have hmax := (C41_extremes p _ _ _ e3).2.2.1
  have hacc := accepted_all (pre.map fun s => daySecond s.timestamp)
  rw [List.length_map] at hacc
  rw [hacc] at hmax
  have hlt := (e5 s hs).2
  rw [hmax] at hlt
  have hnn : 0 ≤ daySecond s.timestamp := Int.emod_nonneg _ (by decide)
  cases hg : (pre.map fun s => daySecond s.timestamp).getLast? with
  | none =>
    rw [List.getLastD_eq_getLast?, hg] at hlt
    simp only [Option.getD_none] at hlt; omega
  | some z =>
    rw [List.getLastD_eq_getLast?, hg] at hlt
    simp only [Option.getD_some] at hlt
    obtain ⟨q, hq, rfl⟩ := List.mem_map.1 (List.mem_of_getLast? hg)
    exact ⟨q, hq, hlt⟩

/-- Samples whose day times never go back are all ingested (whenever no call panics). -/
theorem C56_sorted (p : Profile) (valid : Int → Bool) (ss : List MSample) (m : Metric) (r : Option MSample)
    (hs : ss.Pairwise fun a b => daySecond a.timestamp ≤ daySecond b.timestamp)
    (h : Metric.appendSamples p valid .default ss = .ok (m, r)) : r = none ∧ m.wbro.getSamples = ss.map (·.value) := by
  obtain ⟨pre, post, e1, e2, e3, e4, e5⟩ := C56_ingest p valid ss m r h
  cases r with
  | none =>
    have := e4 rfl
    rw [e1, this, List.append_nil]
    exact ⟨rfl, e2⟩
  | some s =>
    exfalso
    obtain ⟨h1, q, hq, hlt⟩ := e5 s rfl
    rw [e1] at hs
    have hmem : s ∈ post := List.mem_of_mem_head? (by rw [h1]; rfl)
    have := (List.pairwise_append.1 hs).2.2 q hq s hmem
    omega

/-- In a release build ingestion never panics on timestamps the calendar library accepts. -/
theorem C56_release_total (valid : Int → Bool) (ss : List MSample) (hv : ∀ s ∈ ss, valid (s.timestamp.tdiv 1000) = true) :
    ∃ m r, Metric.appendSamples .release valid .default ss = .ok (m, r) := by
  have key : ∀ (ss : List MSample) (d : List F64) (v : Vsri), WeakInv v → (∀ s ∈ ss, valid (s.timestamp.tdiv 1000) = true) →
      ∃ m r, Metric.appendSamples .release valid ⟨WavBrro.fromSlice d, v⟩ ss = .ok (m, r) := by
    intro ss
    induction ss with
    | nil => intro d v _ _; exact ⟨_, _, rfl⟩
    | cons s ss ih =>
      intro d v W hv
      obtain ⟨t, hd, h1, h2, -⟩ := C51_day_seconds valid (s.timestamp.tdiv 1000) (hv s (by simp))
      rw [Metric.appendSamples, hd]
      simp only [bind, Except.bind]
      obtain ⟨a, b⟩ := update_weak (p := .release) W (y := t) (by unfold InI32; omega)
      obtain ⟨v', r, hu⟩ := b rfl
      rw [hu]
      simp only
      cases r with
      | false => rw [if_neg (by simp)]; exact ⟨_, _, rfl⟩
      | true =>
        rw [if_pos rfl, WavBrro.addSample_fromSlice .release d s.value (.inl rfl)]
        exact ih _ v' (a _ _ hu) (fun z hz => hv z (by simp [hz]))
  have := key ss [] .new ⟨by decide, by decide, by decide⟩ hv
  rw [WavBrro.fromSlice_nil] at this
  exact this

/-- Three samples 10 s apart are ingested; a fourth that goes back is refused and named. -/
example : okAnd (Metric.appendSamples .debug (fun _ => true) .default
    [⟨1700000000000, FP.ofInt 1⟩, ⟨1700000010000, FP.ofInt 2⟩, ⟨1700000020000, FP.ofInt 3⟩, ⟨1700000005000, FP.ofInt 4⟩])
    (fun r => decide (r.1.wbro.getSamples = [FP.ofInt 1, FP.ofInt 2, FP.ofInt 3]) && decide (r.1.vsri.segs = [⟨10, 0, 80000, 3⟩]) &&
      decide (r.2 = some ⟨1700000005000, FP.ofInt 4⟩)) = true := by decide +kernel

/-! ### C63 -/

theorem stamp_ok {p : Profile} {v : Vsri} {g : Nat → Int} {k : Nat} : ∀ {xs : List F64} {i : Nat}, i + xs.length ≤ k → k ≤ 2147483648 →
    (∀ j < k, v.getTime p j = .ok (some (g j))) →
    ∃ r, Metric.stamp p v i xs = .ok r ∧ r.map (·.value) = xs ∧ r.map (·.timestamp) = (List.range' i xs.length).map g
  | [], i, _, _, _ => ⟨[], rfl, rfl, rfl⟩
  | x :: xs, i, h, hk, hg => by
    rw [List.length_cons] at h
    obtain ⟨r, h1, h2, h3⟩ := stamp_ok (xs := xs) (i := i + 1) (by omega) hk hg
    have hw : wrap32 (i : Int) = i := by unfold wrap32; omega
    refine ⟨⟨g i, x⟩ :: r, ?_, by simp [h2], by rw [List.length_cons, List.range'_succ]; simp [h3]⟩
    rw [Metric.stamp, hw, hg i (by omega)]
    simp only [bind, Except.bind, h1]

theorem stamp_values {p : Profile} {v : Vsri} (xs : List F64) : ∀ {i : Nat} {r : List MSample}, Metric.stamp p v i xs = .ok r →
    r.map (·.value) = xs := by
  induction xs with
  | nil => intro i r h; rw [Metric.stamp] at h; rw [← Except.ok.inj h]; rfl
  | cons x xs ih =>
    intro i r h
    rw [Metric.stamp] at h
    generalize v.getTime p (wrap32 i) = o at h
    rcases o with e | o
    · cases h
    · simp only [bind, Except.bind] at h
      rcases o with _ | t
      · cases h
      · simp only at h
        cases hs : Metric.stamp p v (i + 1) xs with
        | error e => rw [hs] at h; cases h
        | ok r' =>
          rw [hs] at h
          rw [← Except.ok.inj h, List.map_cons, ih hs]

/-- Values pass through `get_samples` unchanged and in order, whatever the index. -/
theorem C63_values (p : Profile) (m : Metric) (r : List MSample) (h : m.getSamples p = .ok r) : r.map (·.value) = m.wbro.getSamples :=
  stamp_values _ h

/-- Ingestion succeeds when the index takes all the day seconds. -/
theorem ingest_ok {p : Profile} {valid : Int → Bool} : ∀ (ss : List MSample) (d : List F64) (v w : Vsri), (∀ s ∈ ss, valid (s.timestamp.tdiv 1000) = true) →
    d.length + ss.length < 4294967296 →
    Vsri.run p v (ss.map fun s => daySecond s.timestamp) = .ok (w, List.replicate ss.length true) →
    Metric.appendSamples p valid ⟨WavBrro.fromSlice d, v⟩ ss = .ok (⟨WavBrro.fromSlice (d ++ ss.map (·.value)), w⟩, none) := by
  intro ss
  induction ss with
  | nil =>
    intro d v w _ _ hr
    have := congrArg Prod.fst (Except.ok.inj hr)
    simp only at this
    subst this
    simp [Metric.appendSamples]
  | cons s ss ih =>
    intro d v w hv hl hr
    obtain ⟨t, hd, -⟩ := C51_day_seconds valid (s.timestamp.tdiv 1000) (hv s (by simp))
    have ht := dayElapsed_daySecond hd
    rw [List.map_cons, Vsri.run] at hr
    rw [Metric.appendSamples, hd]
    simp only [bind, Except.bind] at hr ⊢
    rw [ht]
    cases hu : v.update p (daySecond s.timestamp) with
    | error e => rw [hu] at hr; cases hr
    | ok q =>
      obtain ⟨v', r⟩ := q
      rw [hu] at hr
      simp only at hr ⊢
      cases hw : Vsri.run p v' (ss.map fun s => daySecond s.timestamp) with
      | error e => rw [hw] at hr; cases hr
      | ok q2 =>
        obtain ⟨w2, rs⟩ := q2
        rw [hw] at hr
        have h1 := congrArg Prod.fst (Except.ok.inj hr)
        have h2 := congrArg Prod.snd (Except.ok.inj hr)
        simp only [List.length_cons, List.replicate_succ, List.cons.injEq] at h1 h2
        obtain ⟨h2, h3⟩ := h2
        subst h1 h2 h3
        rw [if_pos rfl, WavBrro.addSample_fromSlice p d s.value (.inr (by simp only [List.length_cons] at hl; omega))]
        simp only
        rw [ih (d ++ [s.value]) v' w2 (fun z hz => hv z (by simp [hz])) (by simp only [List.length_cons, List.length_append, List.length_nil] at hl ⊢; omega) hw]
        simp

theorem csv_regular (E : Ext) (hE : E.Lawful) (p : Profile) (valid : Int → Bool) (a : CompArgs) (ha : a.Valid) (ss : List MSample)
    (t0 step : Int) (h0 : 0 ≤ t0) (hm : 0 < step) (hn : 2 ≤ ss.length) (hlast : t0 + step * ((ss.length : Int) - 1) < 86400)
    (htimes : ss.map (fun s => daySecond s.timestamp) = regular t0 step ss.length)
    (hvalid : ∀ s ∈ ss, valid (s.timestamp.tdiv 1000) = true) :
    ∃ bro vsri, csvCompress E p valid a ss = .ok (bro, vsri) ∧
      (bro.length < 2 ^ 64 → ∃ out, csvUncompress E p bro vsri = .ok out ∧ out.map (·.timestamp) = regular t0 step (finiteSamples (ss.map (·.value))).length ∧
        decompressData E bro = .ok (out.map (·.value))) := by
  have hge : 1 * ((ss.length : Int) - 1) ≤ step * ((ss.length : Int) - 1) := Int.mul_le_mul_of_nonneg_right (by omega) (by omega)
  have hlen : ss.length ≤ 86400 := by omega
  obtain ⟨v, hrun, -, -, hget⟩ := C46_regular p t0 step ss.length h0 hm hn (by omega) (by omega)
  have hrun' := hrun
  rw [← htimes] at hrun'
  have hm1 := ingest_ok ss [] .new v hvalid (by simp only [List.length_nil]; omega) hrun'
  rw [WavBrro.fromSlice_nil, List.nil_append] at hm1
  have hsamp : (WavBrro.fromSlice (ss.map (·.value))).getSamples = ss.map (·.value) := WavBrro.chunksOf_flatten (by decide) _
  obtain ⟨bs, c1, c2⟩ := C54_end_to_end E hE p (ss.map (·.value)) a ha (by intro _; rw [List.length_map]; omega)
  have hle : (finiteSamples (ss.map (·.value))).length ≤ ss.length := by
    have := List.length_filter_le (fun x : F64 => x.isFinite) (ss.map (·.value))
    rw [List.length_map] at this
    exact this
  refine ⟨bs, v.flush, ?_, fun hl => ?_⟩
  · unfold csvCompress Metric.fromSamples
    rw [show Metric.default = ⟨.new, .new⟩ from rfl, hm1]
    simp only [bind, Except.bind, hsamp, c1]
  · obtain ⟨out, o1, o2⟩ := c2 hl
    have hst : StrictHistory (regular t0 step ss.length) := by
      refine ⟨?_, ?_, by rw [regular_length]; omega⟩
      · rw [List.pairwise_iff_getElem]
        intro i j hi hj hij
        rw [regular_get, regular_get]
        have : step * (i : Int) + step * 1 ≤ step * (j : Int) := by
          rw [← Int.mul_add]; exact Int.mul_le_mul_of_nonneg_left (by omega) hm.le
        omega
      · intro y hy
        obtain ⟨i, hi, rfl⟩ := List.getElem_of_mem hy
        rw [regular_length] at hi
        rw [regular_get]
        have g1 : 0 ≤ step * (i : Int) := Int.mul_nonneg hm.le (Int.natCast_nonneg _)
        have g2 : step * (i : Int) ≤ step * ((ss.length : Int) - 1) := Int.mul_le_mul_of_nonneg_left (by omega) hm.le
        omega
    have hload := C49_reachable p _ hst v _ hrun
    have hadd := C38_bulk p out (.inr (by omega))
    have hso : (WavBrro.fromSlice out).getSamples = out := WavBrro.chunksOf_flatten (by decide) _
    obtain ⟨r, r1, r2, r3⟩ := stamp_ok (p := p) (v := v) (g := fun i => t0 + step * (i : Int)) (k := ss.length) (xs := out) (i := 0) (by omega) (by omega)
      (fun j hj => (hget j hj).2)
    refine ⟨r, ?_, ?_, by rw [r2]; exact o1⟩
    · unfold csvUncompress
      simp only [bind, Except.bind, o1, hadd, hload]
      unfold Metric.getSamples
      simp only [hso]
      exact r1
    · rw [r3, o2]
      unfold regular
      rw [List.range_eq_range']

/-- **C63, regular spacing.** When every value is finite and the samples are regularly spaced within one day, uncompressing what csv-compressor
wrote gives as many samples as were compressed, at the same seconds of the day, in order.  Not given back: the day and the milliseconds
(`C63_refuted_day_lost`), irregular spacing (`C63_refuted_irregular`), repeated times (`C63_refuted_repeated`) and non-finite values
(`C63_refuted_nonfinite`). -/
theorem C63_regular (E : Ext) (hE : E.Lawful) (p : Profile) (valid : Int → Bool) (a : CompArgs) (ha : a.Valid) (ss : List MSample)
    (t0 step : Int) (h0 : 0 ≤ t0) (hm : 0 < step) (hn : 2 ≤ ss.length) (hlast : t0 + step * ((ss.length : Int) - 1) < 86400)
    (htimes : ss.map (fun s => daySecond s.timestamp) = regular t0 step ss.length)
    (hvalid : ∀ s ∈ ss, valid (s.timestamp.tdiv 1000) = true) (hfin : ∀ s ∈ ss, s.value.isFinite = true) :
    ∃ bro vsri, csvCompress E p valid a ss = .ok (bro, vsri) ∧
      (bro.length < 2 ^ 64 → ∃ out, csvUncompress E p bro vsri = .ok out ∧ out.map (·.timestamp) = ss.map (fun s => daySecond s.timestamp) ∧
        decompressData E bro = .ok (out.map (·.value))) := by
  obtain ⟨bro, vsri, h1, h2⟩ := csv_regular E hE p valid a ha ss t0 step h0 hm hn hlast htimes hvalid
  refine ⟨bro, vsri, h1, fun hl => ?_⟩
  obtain ⟨out, o1, o2, o3⟩ := h2 hl
  have hclean : finiteSamples (ss.map (·.value)) = ss.map (·.value) := by
    unfold finiteSamples
    rw [List.filter_eq_self]
    intro x hx
    obtain ⟨s, hs, rfl⟩ := List.mem_map.1 hx
    exact hfin s hs
  rw [hclean, List.length_map, ← htimes] at o2
  exact ⟨out, o1, o2, o3⟩

theorem daySecond_eq {x : Int} (h : daySecond x = x) : x = 0 := by
  unfold daySecond at h
  have h1 : 0 ≤ x := by rw [← h]; exact Int.emod_nonneg _ (by decide)
  rw [Int.tdiv_eq_ediv_of_nonneg h1] at h
  have h2 : x < 86400 := by rw [← h]; exact Int.emod_lt_of_pos _ (by decide)
  rw [Int.emod_eq_of_lt (by omega) (by omega)] at h
  omega

/-- **C63 is false: the day and the milliseconds are lost.** Even in the good case of `C63_regular`, the timestamps read back are never those
compressed. -/
theorem C63_refuted_day_lost (E : Ext) (hE : E.Lawful) (p : Profile) (valid : Int → Bool) (a : CompArgs) (ha : a.Valid) (ss : List MSample)
    (t0 step : Int) (h0 : 0 ≤ t0) (hm : 0 < step) (hn : 2 ≤ ss.length) (hlast : t0 + step * ((ss.length : Int) - 1) < 86400)
    (htimes : ss.map (fun s => daySecond s.timestamp) = regular t0 step ss.length)
    (hvalid : ∀ s ∈ ss, valid (s.timestamp.tdiv 1000) = true) (hfin : ∀ s ∈ ss, s.value.isFinite = true) :
    ∃ bro vsri, csvCompress E p valid a ss = .ok (bro, vsri) ∧
      (bro.length < 2 ^ 64 → ∃ out, csvUncompress E p bro vsri = .ok out ∧ out.map (·.timestamp) ≠ ss.map (·.timestamp)) := by
  obtain ⟨bro, vsri, h1, h2⟩ := C63_regular E hE p valid a ha ss t0 step h0 hm hn hlast htimes hvalid hfin
  refine ⟨bro, vsri, h1, fun hl => ?_⟩
  obtain ⟨out, o1, o2, -⟩ := h2 hl
  refine ⟨out, o1, fun hc => ?_⟩
  rw [o2] at hc
  have hzero : ∀ i (hi : i < ss.length), ss[i].timestamp = 0 := by
    intro i hi
    have := congrArg (fun l => l[i]?) hc
    simp only [List.getElem?_map, List.getElem?_eq_getElem hi, Option.map_some, Option.some.injEq] at this
    exact daySecond_eq this
  have hreg : ∀ i (hi : i < ss.length), daySecond ss[i].timestamp = t0 + step * i := by
    intro i hi
    have := congrArg (fun l => l[i]?) htimes
    rw [List.getElem?_map, List.getElem?_eq_getElem hi, List.getElem?_eq_getElem (by rw [regular_length]; exact hi), regular_get] at this
    simpa using this
  have e0 := hreg 0 (by omega)
  have e1 := hreg 1 (by omega)
  rw [hzero 0 (by omega)] at e0
  rw [hzero 1 (by omega)] at e1
  simp only [Nat.cast_zero, mul_zero, Nat.cast_one, mul_one] at e0 e1
  omega

/-- Non-vacuity: three samples of one day, ten seconds apart. -/
example : ([⟨1700000000000, FP.ofInt 1⟩, ⟨1700000010000, FP.ofInt 2⟩, ⟨1700000020000, FP.ofInt 3⟩] : List MSample).map (fun s => daySecond s.timestamp)
    = regular 80000 10 3 := by decide
example : okAnd (csvCompress Ext.dummy .debug (fun _ => true) { compressor := .noop, error := 3, level := 0 }
    [⟨1700000000000, FP.ofInt 1⟩, ⟨1700000010000, FP.ofInt 2⟩, ⟨1700000020000, FP.ofInt 3⟩]) (fun f =>
      okAnd (csvUncompress Ext.dummy .debug f.1 f.2) (fun out => decide (out = [⟨80000, FP.ofInt 1⟩, ⟨80010, FP.ofInt 2⟩, ⟨80020, FP.ofInt 3⟩]))) = true := by
  decide +kernel

/-- The metric built from the samples answers `get_samples` with these. -/
def readsBack (p : Profile) (ss out : List MSample) : Bool :=
  okAnd (Metric.fromSamples p (fun _ => true) ss) fun r =>
    match r with
    | .ok m => okAnd (m.getSamples p) fun o => decide (o = out)
    | .error _ => false

/-- C63 refuted, irregular spacing: samples at seconds 0, 10 and 25 read back at 0, 10 and 20; and at 0, 10, 50, 60 read back at 0, 10, 70, 80. -/
theorem C63_refuted_irregular (p : Profile) :
    readsBack p [⟨0, FP.ofInt 1⟩, ⟨10000, FP.ofInt 2⟩, ⟨25000, FP.ofInt 3⟩] [⟨0, FP.ofInt 1⟩, ⟨10, FP.ofInt 2⟩, ⟨20, FP.ofInt 3⟩] = true ∧
    readsBack p [⟨0, FP.ofInt 1⟩, ⟨10000, FP.ofInt 2⟩, ⟨50000, FP.ofInt 3⟩, ⟨60000, FP.ofInt 4⟩]
      [⟨0, FP.ofInt 1⟩, ⟨10, FP.ofInt 2⟩, ⟨70, FP.ofInt 3⟩, ⟨80, FP.ofInt 4⟩] = true := by
  cases p <;> decide +kernel

/-- C63 refuted, repeated times: four samples of the same second are ingested, and reading them back panics. -/
theorem C63_refuted_repeated (p : Profile) : okAnd (Metric.fromSamples p (fun _ => true)
    [⟨5000, FP.ofInt 1⟩, ⟨5100, FP.ofInt 2⟩, ⟨5200, FP.ofInt 3⟩, ⟨5300, FP.ofInt 4⟩]) (fun r =>
      match r with
      | .ok m => decide (m.getSamples p = .error .unwrap)
      | .error _ => false) = true := by
  cases p <;> decide +kernel

/-- C63 refuted, non-finite values: they are dropped by the compressor but keep their places in the index, so the values that are left are given the
first times: with `k` finite values among the samples, `k` samples are read back, at the times of the first `k` samples — whichever samples the
finite values belonged to. -/
theorem C63_refuted_nonfinite (E : Ext) (hE : E.Lawful) (p : Profile) (valid : Int → Bool) (a : CompArgs) (ha : a.Valid) (ss : List MSample)
    (t0 step : Int) (h0 : 0 ≤ t0) (hm : 0 < step) (hn : 2 ≤ ss.length) (hlast : t0 + step * ((ss.length : Int) - 1) < 86400)
    (htimes : ss.map (fun s => daySecond s.timestamp) = regular t0 step ss.length)
    (hvalid : ∀ s ∈ ss, valid (s.timestamp.tdiv 1000) = true) (bad : MSample) (hbad : bad ∈ ss) (hnf : bad.value.isFinite = false) :
    ∃ bro vsri, csvCompress E p valid a ss = .ok (bro, vsri) ∧
      (bro.length < 2 ^ 64 → ∃ out, csvUncompress E p bro vsri = .ok out ∧ out.length < ss.length ∧
        out.map (·.timestamp) = (ss.map (fun s => daySecond s.timestamp)).take (finiteSamples (ss.map (·.value))).length) := by
  obtain ⟨bro, vsri, h1, h2⟩ := csv_regular E hE p valid a ha ss t0 step h0 hm hn hlast htimes hvalid
  refine ⟨bro, vsri, h1, fun hl => ?_⟩
  obtain ⟨out, o1, o2, o3⟩ := h2 hl
  have hlt : (finiteSamples (ss.map (·.value))).length < ss.length := by
    have := List.length_filter_lt_length_iff_exists (p := fun x : F64 => x.isFinite) (l := ss.map (·.value)) |>.2
      ⟨bad.value, List.mem_map.2 ⟨bad, hbad, rfl⟩, by simp [hnf]⟩
    rw [List.length_map] at this
    exact this
  refine ⟨out, o1, ?_, ?_⟩
  · have := congrArg List.length o2
    rw [List.length_map, regular_length] at this
    omega
  · rw [o2, htimes]
    unfold regular
    rw [← List.map_take, List.take_range, Nat.min_eq_left hlt.le]

/-- Here (0 s, 1), (10 s, NaN), (20 s, 3) read back as (0 s, 1), (10 s, 3). -/
example : okAnd (csvCompress Ext.dummy .debug (fun _ => true) { compressor := .noop, error := 3, level := 0 }
    [⟨0, FP.ofInt 1⟩, ⟨10000, FP.nan⟩, ⟨20000, FP.ofInt 3⟩]) (fun f =>
      okAnd (csvUncompress Ext.dummy .debug f.1 f.2) (fun out => decide (out = [⟨0, FP.ofInt 1⟩, ⟨10, FP.ofInt 3⟩]))) = true := by
  decide +kernel

end Atsc
