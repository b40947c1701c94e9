import Verif.Props.Metric
import Verif.Props.Stream
/- C85: work can be stopped, saved, loaded and continued at any point. -/
namespace Atsc
open Vsri

/-! ### The stream -/

theorem runOps_append {E : Ext} {p : Profile} : ∀ (ops ops' : List ChunkOp) (s : Stream),
    s.runOps E p (ops ++ ops') = (s.runOps E p ops >>= fun t => t.runOps E p ops') := by
  intro ops
  induction ops with
  | nil => intro ops' s; rfl
  | cons op ops ih =>
    intro ops' s
    rw [List.cons_append, Stream.runOps, Stream.runOps]
    cases op.apply E p s with
    | error e => rfl
    | ok s' => exact ih ops' s'

/-- C85, streams: compressing some chunks, saving, loading and compressing the rest gives the stream (or the panic) of compressing them all at once. -/
theorem C85_stream (E : Ext) (p : Profile) (ops ops' : List ChunkOp) (s : Stream) (hb : Built E p ops s)
    (hin : ∀ op ∈ ops, op.chunk.length < 2 ^ 64) (hout : s.toBytes.length < 2 ^ 64) :
    (do let t ← Stream.fromBytes s.toBytes
        t.runOps E p ops') = Stream.new.runOps E p (ops ++ ops') := by
  rw [C01_stream_roundtrip E p ops s hb hin hout, runOps_append, show Stream.new.runOps E p ops = .ok s from hb]

/-- One chunk, saved and loaded, then a second chunk: both come back. -/
example : okAnd (Stream.new.runOps Ext.dummy .debug [.using [F64.lit 3, F64.lit 3] .rle]) (fun s => s.toBytes.length < 2 ^ 64 ∧
    okAnd (do
      let t ← Stream.fromBytes s.toBytes
      let u ← t.runOps Ext.dummy .debug [.using [F64.lit 4] .constant]
      u.decompress Ext.dummy) (fun out => out = [F64.lit 3, F64.lit 3, F64.lit 4])) = true := by decide +kernel

/-! ### The index -/

theorem update_fields {p : Profile} {v v' : Vsri} {y : Int} {r : Bool} (F : v.Fields) (hy : InI32 y) (h : v.update p y = .ok (v', r)) : v'.Fields := by
  obtain ⟨f1, f2, f3⟩ := F
  have hcur : ∀ z, InI32 ({ v with maxTs := z } : Vsri).current.m ∧ InI32 ({ v with maxTs := z } : Vsri).current.x0 ∧
      InI32 ({ v with maxTs := z } : Vsri).current.y0 ∧ InI32 ({ v with maxTs := z } : Vsri).current.n := by
    intro z
    unfold Vsri.current
    dsimp only
    rcases List.eq_nil_or_concat v.segs with h | ⟨L, b, h⟩
    · rw [h]; decide
    · rw [h]
      simp only [List.concat_eq_append, List.getLastD_concat]
      exact f3 b (by rw [h]; simp)
  have hset : ∀ (s : Seg) (k : Nat), InI32 s.m ∧ InI32 s.x0 ∧ InI32 s.y0 ∧ InI32 s.n →
      ∀ t ∈ v.segs.set k s, InI32 t.m ∧ InI32 t.x0 ∧ InI32 t.y0 ∧ InI32 t.n := by
    intro s k hs t ht
    rcases List.mem_or_eq_of_mem_set ht with ht | rfl
    · exact f3 t ht
    · exact hs
  have hsnoc : ∀ (s : Seg), InI32 s.m ∧ InI32 s.x0 ∧ InI32 s.y0 ∧ InI32 s.n →
      ∀ t ∈ v.segs ++ [s], InI32 t.m ∧ InI32 t.x0 ∧ InI32 t.y0 ∧ InI32 t.n := by
    intro s hs t ht
    rcases List.mem_append.1 ht with ht | ht
    · exact f3 t ht
    · rw [List.mem_singleton.1 ht]; exact hs
  have hz : InI32 0 ∧ InI32 1 ∧ InI32 2 := by decide
  unfold Vsri.update at h
  by_cases h0 : y < v.maxTs
  · rw [if_pos h0] at h
    obtain ⟨rfl, -⟩ := Prod.mk.inj (Except.ok.inj h)
    exact ⟨f1, f2, f3⟩
  · rw [if_neg h0] at h
    dsimp only at h
    by_cases h1 : v.segs.length = 0
    · rw [if_pos h1] at h
      obtain ⟨s, q1, q2⟩ := bind_ok_iff.1 h
      unfold Vsri.fakeSegment at q1
      obtain ⟨x, r1, r2⟩ := bind_ok_iff.1 q1
      obtain rfl := Except.ok.inj r2
      obtain ⟨rfl, -⟩ := Prod.mk.inj (Except.ok.inj q2)
      exact ⟨hy, hy, hsnoc _ ⟨hz.1, (i32op_ok r1).1, hy, hz.2.1⟩⟩
    · rw [if_neg h1] at h
      by_cases h2 : ({ v with maxTs := y } : Vsri).isFake = true
      · rw [if_pos h2] at h
        obtain ⟨s, q1, q2⟩ := bind_ok_iff.1 h
        unfold Vsri.generateSegment at q1
        obtain ⟨rfl, -⟩ := Prod.mk.inj (Except.ok.inj q2)
        refine ⟨f1, hy, hset _ _ ?_⟩
        by_cases h3 : ({ v with maxTs := y } : Vsri).current.m ≠ 0
        · rw [if_pos h3] at q1
          rw [← Except.ok.inj q1]
          exact hcur y
        · rw [if_neg h3] at q1
          obtain ⟨m, r1, r2⟩ := bind_ok_iff.1 q1
          rw [← Except.ok.inj r2]
          exact ⟨(i32op_ok r1).1, (hcur y).2.1, (hcur y).2.2.1, hz.2.2⟩
      · rw [if_neg h2] at h
        obtain ⟨b, -, h⟩ := bind_ok_iff.1 h
        cases b with
        | true =>
          rw [if_pos rfl] at h
          obtain ⟨n, q1, q2⟩ := bind_ok_iff.1 h
          obtain ⟨rfl, -⟩ := Prod.mk.inj (Except.ok.inj q2)
          exact ⟨f1, hy, hset _ _ ⟨(hcur y).1, (hcur y).2.1, (hcur y).2.2.1, (i32op_ok q1).1⟩⟩
        | false =>
          rw [if_neg (by decide)] at h
          obtain ⟨s, q1, q2⟩ := bind_ok_iff.1 h
          unfold Vsri.fakeSegment at q1
          obtain ⟨x, r1, r2⟩ := bind_ok_iff.1 q1
          obtain rfl := Except.ok.inj r2
          obtain ⟨rfl, -⟩ := Prod.mk.inj (Except.ok.inj q2)
          exact ⟨f1, hy, hsnoc _ ⟨hz.1, (i32op_ok r1).1, hy, hz.2.1⟩⟩

theorem run_fields {p : Profile} : ∀ (ys : List Int) (v w : Vsri) (rs : List Bool), v.Fields → (∀ y ∈ ys, InI32 y) → Vsri.run p v ys = .ok (w, rs) → w.Fields := by
  intro ys
  induction ys with
  | nil =>
    intro v w rs F _ h
    obtain ⟨rfl, -⟩ := Prod.mk.inj (Except.ok.inj h)
    exact F
  | cons y ys ih =>
    intro v w rs F hy h
    unfold Vsri.run at h
    obtain ⟨⟨v', r⟩, q1, q2⟩ := bind_ok_iff.1 h
    dsimp only at q2
    obtain ⟨⟨w', rs'⟩, q3, q4⟩ := bind_ok_iff.1 q2
    obtain ⟨rfl, -⟩ := Prod.mk.inj (Except.ok.inj q4)
    exact ih v' _ _ (update_fields F (hy y (by simp)) q1) (fun z hz => hy z (by simp [hz])) q3

theorem new_fields : Vsri.new.Fields := ⟨by decide, by decide, by simp [Vsri.new]⟩

theorem run_append {p : Profile} : ∀ (ys zs : List Int) (v : Vsri),
    Vsri.run p v (ys ++ zs) = (do
      let (w, rs) ← Vsri.run p v ys
      let (u, rs') ← Vsri.run p w zs
      .ok (u, rs ++ rs')) := by
  intro ys
  induction ys with
  | nil =>
    intro zs v
    rw [List.nil_append]
    simp only [Vsri.run, bind, Except.bind, List.nil_append]
    cases Vsri.run p v zs <;> rfl
  | cons y ys ih =>
    intro zs v
    rw [List.cons_append, Vsri.run, Vsri.run]
    cases v.update p y with
    | error e => rfl
    | ok q =>
      obtain ⟨v', r⟩ := q
      simp only [bind, Except.bind]
      rw [ih zs v']
      simp only [bind, Except.bind]
      cases Vsri.run p v' ys with
      | error e => rfl
      | ok q =>
        obtain ⟨w, rs⟩ := q
        simp only
        cases Vsri.run p w zs with
        | error e => rfl
        | ok q => rfl

/-- C85, index: for every history of i32 points, in any order and with repetitions (so also with refused points), stopping after some of them, saving the
index, loading it and continuing gives the same answers and the same index as never stopping. -/
theorem C85_index (p : Profile) (ys zs : List Int) (hy : ∀ y ∈ ys, InI32 y) (v : Vsri) (rs : List Bool) (h : Vsri.run p .new ys = .ok (v, rs)) :
    (do let w ← load (flush v)
        let (u, rs') ← Vsri.run p w zs
        .ok (u, rs ++ rs')) = Vsri.run p .new (ys ++ zs) := by
  rw [C49_flush_load v (run_fields ys .new v rs new_fields hy h), run_append, h]
  rfl

/-- A history with a refused point and a repeated one, stopped in the middle. -/
example : okAnd (Vsri.run .debug .new [5, 3, 9]) (fun q => q.2 = [true, false, true] ∧
    okAnd (do let w ← load (flush q.1); Vsri.run .debug w [9, 13, 1]) (fun q' => q'.2 = [true, true, false])) = true := by decide +kernel

/-! ### The metric -/

/-- C85, metrics: ingesting samples in two batches is the same as ingesting them at once; a refused sample in the first batch stops it. -/
theorem C85_batches (p : Profile) (valid : Int → Bool) : ∀ (ss ss' : List MSample) (m : Metric),
    Metric.appendSamples p valid m (ss ++ ss') = (do
      let (m', r) ← Metric.appendSamples p valid m ss
      match r with
      | none => Metric.appendSamples p valid m' ss'
      | some s => .ok (m', some s)) := by
  intro ss
  induction ss with
  | nil => intro ss' m; rfl
  | cons s ss ih =>
    intro ss' m
    rw [List.cons_append, Metric.appendSamples, Metric.appendSamples]
    cases dayElapsedSeconds valid (s.timestamp.tdiv 1000) with
    | error e => rfl
    | ok t =>
      simp only [bind, Except.bind]
      cases m.vsri.update p t with
      | error e => rfl
      | ok q =>
        obtain ⟨v, b⟩ := q
        simp only
        cases b with
        | false => rfl
        | true =>
          simp only [if_true]
          cases m.wbro.addSample p s.value with
          | error e => rfl
          | ok w => exact ih ss' ⟨w, v⟩

/-- C85, metrics across files: after ingesting `ss`, write the data to a WBRO file and the index to a VSRI file, read both back and rebuild the metric from
them: ingesting `ss'` then gives exactly what ingesting everything at once gives. -/
theorem C85_metric (p : Profile) (valid : Int → Bool) (ss ss' : List MSample) (m : Metric) (h : Metric.appendSamples p valid .default ss = .ok (m, none))
    (hn : ss.length ≤ 2 ^ 28) (addr : Nat) (ha : 8 ∣ addr) :
    ∃ f d, m.wbro.toFile = .ok f ∧ WavBrro.fromFile addr f = .ok (.samples d) ∧
      (do let w ← WavBrro.addAll p .new d
          let v ← load (flush m.vsri)
          Metric.appendSamples p valid ⟨w, v⟩ ss') = Metric.appendSamples p valid .default (ss ++ ss') := by
  obtain ⟨pre, post, e1, e2, e3, e4, -⟩ := append_split h
  have hp := e4 rfl
  subst hp
  rw [List.append_nil] at e1
  subst e1
  have hw : WavBrro.addAll p .new (ss.map (·.value)) = .ok m.wbro := e2
  obtain ⟨f, f1, f2⟩ := C39_round_trip_added p (ss.map (·.value)) (by rw [List.length_map]; exact hn) m.wbro hw addr ha
  refine ⟨f, _, f1, f2, ?_⟩
  have hf : m.vsri.Fields := by
    refine run_fields _ .new _ _ new_fields (fun y hy => ?_) e3
    obtain ⟨s, -, rfl⟩ := List.mem_map.1 hy
    unfold daySecond InI32
    omega
  rw [hw, ok_bind, C49_flush_load _ hf, ok_bind, C85_batches, h, ok_bind]

/-- Two samples, then a third one after a reload. -/
example : okAnd (Metric.appendSamples .debug (fun _ => true) .default [⟨1000, F64.lit 7⟩, ⟨3000, F64.lit 8⟩]) (fun q => q.2 = none ∧
    okAnd (do let v ← load (flush q.1.vsri); Metric.appendSamples .debug (fun _ => true) ⟨q.1.wbro, v⟩ [⟨5000, F64.lit 9⟩])
      (fun q' => q'.2 = none ∧ q'.1.wbro.getSamples = [F64.lit 7, F64.lit 8, F64.lit 9] ∧ q'.1.vsri.segs = [⟨2, 0, 1, 3⟩])) = true := by decide +kernel

end Atsc
