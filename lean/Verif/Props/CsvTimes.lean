import Verif.Props.CsvCompressor
import Verif.Props.VsriNear
/- C63 and C45 together: exactly which timestamps csv-compressor reads back. -/
namespace Atsc
open Vsri

/-- **C63, exactly, for samples of one day in strictly increasing seconds.** Compressing succeeds in every build and writes the index of the day
seconds; uncompressing gives one sample per finite value, with the values of the compressed stream, and the time of sample `i` — of segment `s` of that
index — is the time the index records for sample `i`, plus the rate of the segment times the number of its first sample.  So a timestamp is what the
index records exactly in the first segment and in segments of one sample, and the time recorded is never later than the second that was ingested. -/
theorem C63_exact (E : Ext) (hE : E.Lawful) (p : Profile) (valid : Int → Bool) (a : CompArgs) (ha : a.Valid) (ss : List MSample)
    (H : DayHistory (ss.map fun s => daySecond s.timestamp)) (hvalid : ∀ s ∈ ss, valid (s.timestamp.tdiv 1000) = true) :
    ∃ bro v ts, Vsri.run p .new (ss.map fun s => daySecond s.timestamp) = .ok (v, List.replicate ss.length true) ∧
      v.allTimestamps p = .ok ts ∧ csvCompress E p valid a ss = .ok (bro, v.flush) ∧ ∃ hts : ts.length = ss.length,
      (∀ i (hi : i < ss.length), ts[i] ≤ daySecond ss[i].timestamp) ∧
      (bro.length < 2 ^ 64 → ∃ out, csvUncompress E p bro v.flush = .ok out ∧ decompressData E bro = .ok (out.map (·.value)) ∧
        out.length = (finiteSamples (ss.map (·.value))).length ∧
        ∀ (i : Nat) (h1 : i < out.length) (h2 : i < ss.length), ∃ s ∈ v.segs, s.Has i ∧ out[i].timestamp = ts[i] + s.m * s.x0 ∧
          (out[i].timestamp = ts[i] ↔ s.x0 = 0 ∨ s.n = 1)) := by
  have HS := H.strict
  have hday : ss.length ≤ 86400 := by
    by_contra hc
    have hl : (ss.map fun s => daySecond s.timestamp).length = ss.length := List.length_map ..
    have h1 := idx_le H.increasing (fun z hz => (H.range z hz).1) (ss.length - 1) (by omega)
    have h2 := H.range _ (List.getElem_mem (l := ss.map fun s => daySecond s.timestamp) (n := ss.length - 1) (by omega))
    omega
  obtain ⟨v, hrun⟩ : ∃ v, Vsri.run p .new (ss.map fun s => daySecond s.timestamp) = .ok (v, List.replicate ss.length true) := by
    obtain ⟨v, r1, r2, -⟩ := C50_day_no_overflow _ H
    rw [List.length_map] at r1 r2
    cases p
    · exact ⟨v, r1⟩
    · exact ⟨v, r2⟩
  obtain ⟨I, -⟩ := run_inv HS hrun
  obtain ⟨ts, hts, T⟩ := times_of (p := p) I
  have hlen : ts.length = ss.length := by rw [T.len, List.length_map]
  have hm1 := ingest_ok (p := p) (valid := valid) ss [] .new v hvalid (by simp only [List.length_nil]; omega) hrun
  rw [WavBrro.fromSlice_nil, List.nil_append] at hm1
  have hsamp : (WavBrro.fromSlice (ss.map (·.value))).getSamples = ss.map (·.value) := WavBrro.chunksOf_flatten (by decide) _
  obtain ⟨bs, c1, c2⟩ := C54_end_to_end E hE p (ss.map (·.value)) a ha (by intro _; rw [List.length_map]; omega)
  have hle : (finiteSamples (ss.map (·.value))).length ≤ ss.length := by
    have := List.length_filter_le (fun x : F64 => x.isFinite) (ss.map (·.value))
    rw [List.length_map] at this
    exact this
  -- the answers of the index
  have hget : ∀ i, i < ss.length → ∃ s ∈ v.segs, s.Has i ∧ ∃ hi : i < ts.length, v.getTime p i = .ok (some (ts[i] + s.m * s.x0)) ∧
      (v.getTime p i = .ok (some ts[i]) ↔ s.x0 = 0 ∨ s.n = 1) := by
    intro i hi
    obtain ⟨s, hs, hh⟩ := T.cover i (by omega)
    obtain ⟨ts', q1, q2, q3, q4⟩ := C45_exact_day p _ H v _ hrun i s hs hh
    rw [hts] at q1
    obtain rfl := Except.ok.inj q1
    exact ⟨s, hs, hh, q2, q3, q4⟩
  have hex : ∃ g : Nat → Int, ∀ j < ss.length, v.getTime p j = .ok (some (g j)) := by
    refine ⟨fun j => match v.getTime p j with | .ok (some t) => t | _ => 0, fun j hj => ?_⟩
    obtain ⟨s, _, _, _, q, _⟩ := hget j hj
    simp only [q]
  obtain ⟨g, hg⟩ := hex
  refine ⟨bs, v, ts, hrun, hts, ?_, hlen, fun i hi => ?_, fun hl => ?_⟩
  · unfold csvCompress Metric.fromSamples
    rw [show Metric.default = ⟨.new, .new⟩ from rfl, hm1]
    simp only [bind, Except.bind, hsamp, c1]
  · have := T.le i (by omega) (by rw [List.length_map]; exact hi)
    rw [List.getElem_map] at this
    exact this
  · obtain ⟨out, o1, o2⟩ := c2 hl
    have hload := C49_reachable p _ HS v _ hrun
    have hadd := C38_bulk p out (.inr (by omega))
    have hso : (WavBrro.fromSlice out).getSamples = out := WavBrro.chunksOf_flatten (by decide) _
    obtain ⟨r, r1, r2, r3⟩ := stamp_ok (p := p) (v := v) (g := g) (k := ss.length) (xs := out) (i := 0) (by omega) (by omega) hg
    have hrl : r.length = out.length := by rw [← r2, List.length_map]
    refine ⟨r, ?_, by rw [r2]; exact o1, by omega, fun i h1 h2 => ?_⟩
    · unfold csvUncompress
      simp only [bind, Except.bind, o1, hadd, hload]
      unfold Metric.getSamples
      simp only [hso]
      exact r1
    · obtain ⟨s, hs, hh, hi, q1, q2⟩ := hget i h2
      have hgi := hg i h2
      have e : r[i].timestamp = g i := by
        have := congrArg (fun l => l[i]?) r3
        simp only [List.getElem?_map, List.getElem?_eq_getElem h1, Option.map_some] at this
        rw [List.getElem?_eq_getElem (by rw [List.length_range']; omega)] at this
        simpa using this
      rw [hgi] at q1 q2
      have q1 := Option.some.inj (Except.ok.inj q1)
      refine ⟨s, hs, hh, by omega, ?_⟩
      rw [← q2, e]
      exact ⟨fun h => by rw [h], fun h => Option.some.inj (Except.ok.inj h)⟩

/-- Non-vacuity: samples at seconds 0, 10, 50 and 60 are a day history; their index has the segments `[10, 0, 0, 2]` and `[10, 2, 50, 2]`, and the
samples of the second segment come back `10 · 2` seconds late. -/
example : DayHistory (([⟨0, FP.ofInt 1⟩, ⟨10000, FP.ofInt 2⟩, ⟨50000, FP.ofInt 3⟩, ⟨60000, FP.ofInt 4⟩] : List MSample).map fun s => daySecond s.timestamp) :=
  ⟨by decide, by decide⟩
example : okAnd (csvCompress Ext.dummy .debug (fun _ => true) { compressor := .noop, error := 3, level := 0 }
    [⟨0, FP.ofInt 1⟩, ⟨10000, FP.ofInt 2⟩, ⟨50000, FP.ofInt 3⟩, ⟨60000, FP.ofInt 4⟩]) (fun f =>
      decide (Vsri.load f.2 = .ok ⟨0, 60, [⟨10, 0, 0, 2⟩, ⟨10, 2, 50, 2⟩]⟩) &&
      okAnd (csvUncompress Ext.dummy .debug f.1 f.2) (fun out =>
        decide (out = [⟨0, FP.ofInt 1⟩, ⟨10, FP.ofInt 2⟩, ⟨70, FP.ofInt 3⟩, ⟨80, FP.ofInt 4⟩]))) = true := by
  decide +kernel

/-- **C72 and C63 for files, any samples of one day in increasing seconds**, at least one of them finite: compressing with `--output-vsri` and uncompressing the
`.bro` file succeed, and the CSV file written holds one sample per finite value, with the values the codec returns and the times of `C63_exact`. -/
theorem C72_round_trip_exact (env : CsvEnv) (hE : env.E.Lawful) (a b : CsvArgs) (ha : a.comp.Valid) (fs : Fs) (input : FPath) (content : Bytes) (ss : List MSample)
    (hu : a.uncompress = false) (hnc : a.noCompression = false) (hov : a.outputVsri = true) (hub : b.uncompress = true)
    (hf : fs input = some content) (hr : env.readCsv content = some ss)
    (H : DayHistory (ss.map fun s => daySecond s.timestamp)) (hvalid : ∀ s ∈ ss, env.valid (s.timestamp.tdiv 1000) = true)
    (x : MSample) (hx : x ∈ ss) (hfin : x.value.isFinite = true) :
    ∃ fs1 bro v ts, csvRun env a fs input = (fs1, .ok ()) ∧ fs1 ((a.base input).withExt "bro") = some bro ∧
      compressData env.E env.p (ss.map (·.value)) a.comp = .ok bro ∧
      Vsri.run env.p .new (ss.map fun s => daySecond s.timestamp) = .ok (v, List.replicate ss.length true) ∧ v.allTimestamps env.p = .ok ts ∧
      ts.length = ss.length ∧
      (bro.length < 2 ^ 64 → ∃ fs2 out, csvRun env b fs1 ((a.base input).withExt "bro") = (fs2, .ok ()) ∧
        fs2 ((b.base ((a.base input).withExt "bro")).withExt "csv") = some (env.writeCsv out) ∧
        decompressData env.E bro = .ok (out.map (·.value)) ∧ out.length = (finiteSamples (ss.map (·.value))).length ∧
        ∀ (i : Nat) (h1 : i < out.length) (h2 : i < ts.length), ∃ s ∈ v.segs, s.Has i ∧ out[i].timestamp = ts[i] + s.m * s.x0) := by
  have hday : ss.length ≤ 86400 := by
    by_contra hc
    have hl : (ss.map fun s => daySecond s.timestamp).length = ss.length := List.length_map ..
    have h1 := idx_le H.increasing (fun z hz => (H.range z hz).1) (ss.length - 1) (by omega)
    have h2 := H.range _ (List.getElem_mem (l := ss.map fun s => daySecond s.timestamp) (n := ss.length - 1) (by omega))
    omega
  obtain ⟨bro, v, ts, c1, c2, c3, hts, -, c5⟩ := C63_exact env.E hE env.p env.valid a.comp ha ss H hvalid
  obtain ⟨fs1, r1, r2, r3, r4⟩ := run_compress hu hnc hov hf hr (by omega) c3
  refine ⟨fs1, bro, v, ts, r1, r2, r4, c1, c2, hts, fun hl => ?_⟩
  obtain ⟨out, o1, o2, o3, o4⟩ := c5 hl
  obtain ⟨bs, q1, q2, -⟩ := C53_accepted env.E hE env.p (ss.map (·.value)) a.comp ha (by intro _; rw [List.length_map]; omega) x.value
    (List.mem_map.2 ⟨x, hx, rfl⟩) hfin
  rw [r4] at q1
  obtain rfl := Except.ok.inj q1
  have hle : (finiteSamples (ss.map (·.value))).length ≤ ss.length := by
    have := List.length_filter_le (fun x : F64 => x.isFinite) (ss.map (·.value))
    rw [List.length_map] at this
    exact this
  obtain ⟨fs2, f, g1, g2, -⟩ := run_uncompress (a := b) hub r2 q2 r3 o2 (by rw [List.length_map]; omega) o1
  refine ⟨fs2, out, g1, g2, o2, o3, fun i h1 h2 => ?_⟩
  obtain ⟨s, hs, hh, e, -⟩ := o4 i h1 (by omega)
  exact ⟨s, hs, hh, e⟩

end Atsc
