import Verif.Props.CsvTimes
import Verif.Props.CsvNumbers
import Verif.Props.VsriRepeat
import Verif.Props.Resume
import Mathlib.Data.Int.Interval
/- C122: how many samples csv-compressor gives back, and what happens when its output is its input. -/
namespace Atsc
open Vsri

theorem getTimeIn_covered {i : Int} : ∀ {segs : List Seg} {a b : Int}, Contiguous a segs b → 0 ≤ a → b < 2147483648 → a ≤ i → i < b →
    ∃ t, getTimeIn .release i segs = .ok (some t) := by
  intro segs
  induction segs with
  | nil => intro a b h h0 h1 h2 h3; have : a = b := h; omega
  | cons s ss ih =>
    rintro a b ⟨e, hn, hc⟩ h0 h1 h2 h3
    have hle := Contiguous_le hc
    rw [getTimeIn, if_pos (by omega), i32op_in (by unfold InI32; omega), ok_bind]
    by_cases hi : i < s.x0 + s.n
    · rw [if_pos hi]
      have hop : ∀ z, ∃ w, i32op .release z = .ok w := fun z => by unfold i32op; split_ifs <;> exact ⟨_, rfl⟩
      obtain ⟨t, ht⟩ := hop (s.m * i)
      obtain ⟨y, hy⟩ := hop (s.y0 + t)
      exact ⟨y, by rw [ht, ok_bind, hy, ok_bind]⟩
    · rw [if_neg hi]
      exact ih hc (by omega) h1 (by omega) h3

/-- Which sample numbers have a time: those up to the number of samples, itself included. -/
theorem getTime_has {v : Vsri} {c : Nat} {p : Profile} (hc : v.sampleCount p = .ok (c : Int)) (hcon : Contiguous 0 v.segs c) (hb : c < 2147483648) (j : Nat) :
    (p = .release → j ≤ c → ∃ t, v.getTime p j = .ok (some t)) ∧ (c < j → v.getTime p j = .ok none) := by
  constructor
  · rintro rfl hj
    rw [getTime]
    by_cases h0 : (j : Int) = 0
    · rw [if_pos h0]; exact ⟨_, rfl⟩
    · rw [if_neg h0, hc, ok_bind, if_neg (by omega)]
      by_cases h1 : (j : Int) = c
      · rw [if_pos h1]; exact ⟨_, rfl⟩
      · rw [if_neg h1]
        exact getTimeIn_covered hcon (le_refl _) (by omega) (by omega) (by omega)
  · intro hj
    rw [getTime, if_neg (by omega), hc, ok_bind, if_pos (by omega)]

theorem stamp_too_many {p : Profile} {v : Vsri} {c : Nat} (hb : c + 1 < 2147483648) (hnone : v.getTime p ((c + 1 : Nat) : Int) = .ok none) :
    ∀ {xs : List F64} {i : Nat}, i ≤ c + 1 → c + 1 < i + xs.length → ∃ e, Metric.stamp p v i xs = .error e := by
  intro xs
  induction xs with
  | nil => intro i h1 h2; simp at h2; omega
  | cons x xs ih =>
    intro i h1 h2
    rw [List.length_cons] at h2
    have hw : wrap32 (i : Int) = i := by unfold wrap32; omega
    rw [Metric.stamp, hw]
    rcases Nat.lt_or_ge i (c + 1) with hi | hi
    · obtain ⟨e, he⟩ := ih (i := i + 1) (by omega) (by omega)
      rcases ho : v.getTime p (i : Int) with e' | o
      · exact ⟨e', rfl⟩
      · rcases o with _ | t
        · exact ⟨_, rfl⟩
        · refine ⟨e, ?_⟩
          rw [ok_bind]
          dsimp only
          rw [he]; rfl
    · obtain rfl : i = c + 1 := by omega
      rw [hnone]
      exact ⟨_, rfl⟩

/-- Which different seconds of a day the samples are at. -/
def secondsOf (ss : List MSample) : Finset Int := (ss.map fun s => daySecond s.timestamp).toFinset

theorem daySecond_range (x : Int) : 0 ≤ daySecond x ∧ daySecond x < 86400 := by
  unfold daySecond; omega

/-- What `csvCompress` wrote, taken apart. -/
theorem csvCompress_inv {E : Ext} {p : Profile} {valid : Int → Bool} {a : CompArgs} {ss : List MSample} {bro : Bytes} {vsri : List Char}
    (h : csvCompress E p valid a ss = .ok (bro, vsri)) :
    ∃ v, Vsri.run p .new (ss.map fun s => daySecond s.timestamp) = .ok (v, List.replicate ss.length true) ∧ vsri = v.flush ∧
      compressData E p (ss.map (·.value)) a = .ok bro := by
  unfold csvCompress at h
  obtain ⟨r, h1, h⟩ := bind_ok_iff.1 h
  cases r with
  | error s => cases h
  | ok m =>
    dsimp only at h
    obtain ⟨bs, h2, h3⟩ := bind_ok_iff.1 h
    obtain ⟨rfl, rfl⟩ := Prod.mk.inj (Except.ok.inj h3)
    unfold Metric.fromSamples at h1
    obtain ⟨⟨m', e⟩, h5, h6⟩ := bind_ok_iff.1 h1
    cases e with
    | some s => cases h6
    | none =>
      obtain rfl := Except.ok.inj (Except.ok.inj h6)
      obtain ⟨pre, post, e1, e2, e3, e4, -⟩ := C56_ingest p valid ss m' none h5
      have hp := e4 rfl
      subst hp
      rw [List.append_nil] at e1
      subst e1
      exact ⟨m'.vsri, e3, rfl, by rw [← e2]; exact h2⟩

/-- Only samples in time order of the day are compressed. -/
theorem csvCompress_sorted {E : Ext} {p : Profile} {valid : Int → Bool} {a : CompArgs} {ss : List MSample} {bro : Bytes} {vsri : List Char}
    (h : csvCompress E p valid a ss = .ok (bro, vsri)) : (ss.map fun s => daySecond s.timestamp).Pairwise (· ≤ ·) := by
  obtain ⟨v, h1, -, -⟩ := csvCompress_inv h
  have := (C41_extremes p _ v _ h1).2.2.2
  have e := accepted_all (ss.map fun s => daySecond s.timestamp)
  rw [List.length_map] at e
  rwa [e] at this

/-- What is read back: the panic or the samples of `stamp`. -/
theorem csvUncompress_eq {E : Ext} {p : Profile} {h : List Int} (hr : ∀ y ∈ h, 0 ≤ y ∧ y < 86400) {v : Vsri} {rs : List Bool} (hv : Vsri.run p .new h = .ok (v, rs))
    {bro : Bytes} {out : List F64} (hd : decompressData E bro = .ok out) (hn : out.length < 4294967296) :
    csvUncompress E p bro v.flush = Metric.stamp p v 0 out := by
  have hload := C49_flush_load v (run_fields h .new v rs new_fields (fun y hy => by have := hr y hy; unfold InI32; omega) hv)
  have hadd := C38_bulk p out (.inr hn)
  have hso : (WavBrro.fromSlice out).getSamples = out := WavBrro.chunksOf_flatten (by decide) _
  unfold csvUncompress
  rw [hd, ok_bind, hadd, ok_bind, hload, ok_bind]
  unfold Metric.getSamples
  dsimp only
  rw [hso]

/-- **C122, the limit.** If there are more finite values than twice the different seconds of the day plus one, what csv-compressor wrote (if it wrote anything)
cannot be uncompressed by it, in any build. -/
theorem C122_limit (E : Ext) (hE : E.Lawful) (p : Profile) (valid : Int → Bool) (a : CompArgs) (ha : a.Valid) (ss : List MSample)
    (hn : ss.length < 2147483648) (hp : FewEnough p (ss.map (·.value)))
    (hmany : 2 * (secondsOf ss).card + 1 < (finiteSamples (ss.map (·.value))).length)
    (bro : Bytes) (vsri : List Char) (h : csvCompress E p valid a ss = .ok (bro, vsri)) (hl : bro.length < 2 ^ 64) :
    ∃ e, csvUncompress E p bro vsri = .error e := by
  have hs := csvCompress_sorted h
  obtain ⟨v, h1, rfl, h3⟩ := csvCompress_inv h
  have hday : ∀ y ∈ ss.map (fun s => daySecond s.timestamp), 0 ≤ y ∧ y < 86400 := by
    intro y hy; obtain ⟨s, -, rfl⟩ := List.mem_map.1 hy; exact daySecond_range _
  have H : SortedHistory (ss.map fun s => daySecond s.timestamp) := ⟨hs, fun y hy => by have := hday y hy; omega, by rw [List.length_map]; exact hn⟩
  obtain ⟨-, c, c1, c2, c3, c4, c5⟩ := C97_counts p _ H v _ h1
  rw [List.length_map] at c5
  change (secondsOf ss).card ≤ c at c3
  change c ≤ 2 * (secondsOf ss).card at c4
  obtain ⟨bs, d1, d2⟩ := C54_end_to_end E hE p (ss.map (·.value)) a ha hp
  rw [h3] at d1; obtain rfl := Except.ok.inj d1
  obtain ⟨out, o1, o2⟩ := d2 hl
  have hle : (finiteSamples (ss.map (·.value))).length ≤ ss.length := by
    have := List.length_filter_le (fun x : F64 => x.isFinite) (ss.map (·.value))
    rw [List.length_map] at this
    exact this
  rw [csvUncompress_eq hday h1 o1 (by omega)]
  have hc : c + 1 < out.length := by
    rw [o2]; exact lt_of_le_of_lt (by omega : c + 1 ≤ 2 * (secondsOf ss).card + 1) hmany
  exact stamp_too_many (c := c) (by omega) ((getTime_has c1 c2 (by omega) (c + 1)).2 (by omega)) (by omega) (by omega)

/-- **C122, exactly, in a release build.** Samples in time order of the day, repeated seconds allowed, are compressed; the index counts `c` of them, at least one and at most two for each
different second; and uncompressing succeeds exactly when there are at most `c + 1` finite values, giving the values of the compressed stream. -/
theorem C122_exact (E : Ext) (hE : E.Lawful) (valid : Int → Bool) (a : CompArgs) (ha : a.Valid) (ss : List MSample)
    (hs : (ss.map fun s => daySecond s.timestamp).Pairwise (· ≤ ·)) (hn : ss.length < 2147483648) (hvalid : ∀ s ∈ ss, valid (s.timestamp.tdiv 1000) = true) :
    ∃ bro v c, csvCompress E .release valid a ss = .ok (bro, v.flush) ∧
      Vsri.run .release .new (ss.map fun s => daySecond s.timestamp) = .ok (v, List.replicate ss.length true) ∧ v.sampleCount .release = .ok (c : Nat) ∧
      (secondsOf ss).card ≤ c ∧ c ≤ 2 * (secondsOf ss).card ∧ c ≤ ss.length ∧
      (bro.length < 2 ^ 64 →
        ((finiteSamples (ss.map (·.value))).length ≤ c + 1 → ∃ out, csvUncompress E .release bro v.flush = .ok out ∧ decompressData E bro = .ok (out.map (·.value))) ∧
        (c + 1 < (finiteSamples (ss.map (·.value))).length → ∃ e, csvUncompress E .release bro v.flush = .error e)) := by
  have hday : ∀ y ∈ ss.map (fun s => daySecond s.timestamp), 0 ≤ y ∧ y < 86400 := by
    intro y hy; obtain ⟨s, -, rfl⟩ := List.mem_map.1 hy; exact daySecond_range _
  have H : SortedHistory (ss.map fun s => daySecond s.timestamp) := ⟨hs, fun y hy => by have := hday y hy; omega, by rw [List.length_map]; exact hn⟩
  obtain ⟨v, hrun⟩ := C97_release_total _ H
  rw [List.length_map] at hrun
  obtain ⟨-, c, c1, c2, c3, c4, c5⟩ := C97_counts .release _ H v _ hrun
  rw [List.length_map] at c5
  obtain ⟨bs, d1, d2⟩ := C54_end_to_end E hE .release (ss.map (·.value)) a ha (fun h => by cases h)
  have hle : (finiteSamples (ss.map (·.value))).length ≤ ss.length := by
    have := List.length_filter_le (fun x : F64 => x.isFinite) (ss.map (·.value))
    rw [List.length_map] at this
    exact this
  have hm1 := ingest_ok (p := .release) (valid := valid) ss [] .new v hvalid (by simp only [List.length_nil]; omega) hrun
  rw [WavBrro.fromSlice_nil, List.nil_append] at hm1
  have hsamp : (WavBrro.fromSlice (ss.map (·.value))).getSamples = ss.map (·.value) := WavBrro.chunksOf_flatten (by decide) _
  refine ⟨bs, v, c, ?_, hrun, c1, c3, c4, c5, fun hl => ?_⟩
  · unfold csvCompress Metric.fromSamples
    rw [show Metric.default = ⟨.new, .new⟩ from rfl, hm1]
    simp only [bind, Except.bind, hsamp, d1]
  · obtain ⟨out, o1, o2⟩ := d2 hl
    rw [csvUncompress_eq hday hrun o1 (by omega)]
    constructor
    · intro hc
      obtain ⟨r, r1, r2, -⟩ := stamp_ok (p := .release) (v := v) (g := fun j => match v.getTime .release j with | .ok (some t) => t | _ => 0) (k := c + 1) (xs := out) (i := 0)
        (by omega) (by omega) (fun j hj => by
          obtain ⟨t, ht⟩ := (getTime_has c1 c2 (by omega) j).1 rfl (by omega)
          simp only [ht])
      exact ⟨r, r1, by rw [r2]; exact o1⟩
    · intro hc
      exact stamp_too_many (c := c) (by omega) ((getTime_has c1 c2 (by omega) (c + 1)).2 (by omega)) (by omega) (by omega)

theorem card_seconds {ss : List MSample} {n : Nat} (h : ∀ s ∈ ss, daySecond s.timestamp < n) : (secondsOf ss).card ≤ n := by
  have hsub : secondsOf ss ⊆ Finset.Ico (0 : Int) n := by
    intro y hy
    obtain ⟨s, hs, rfl⟩ := List.mem_map.1 (List.mem_toFinset.1 hy)
    exact Finset.mem_Ico.2 ⟨(daySecond_range _).1, h s hs⟩
  have := Finset.card_le_card hsub
  rw [Int.card_Ico] at this
  omega

/-- **C122, a whole day.** There are 86400 seconds in a day, so a CSV file with more than 172801 finite values cannot be compressed and uncompressed, whatever its timestamps. -/
theorem C122_day (E : Ext) (hE : E.Lawful) (p : Profile) (valid : Int → Bool) (a : CompArgs) (ha : a.Valid) (ss : List MSample)
    (hn : ss.length < 2147483648) (hp : FewEnough p (ss.map (·.value))) (hmany : 172801 < (finiteSamples (ss.map (·.value))).length)
    (bro : Bytes) (vsri : List Char) (h : csvCompress E p valid a ss = .ok (bro, vsri)) (hl : bro.length < 2 ^ 64) :
    ∃ e, csvUncompress E p bro vsri = .error e := by
  have hcard := card_seconds (ss := ss) (n := 86400) (fun s _ => (daySecond_range _).2)
  exact C122_limit E hE p valid a ha ss hn hp (by omega) bro vsri h hl

theorem finite_oneNaN (l : List F64) : (finiteSamples (l.map oneNaN)).length = (finiteSamples l).length := by
  unfold finiteSamples
  induction l with
  | nil => rfl
  | cons x xs ih =>
    have hx : (oneNaN x).isFinite = x.isFinite := by
      unfold oneNaN
      split_ifs with h
      · rw [show (FP.nan : F64).isFinite = false by decide +kernel]
        cases hf : x.isFinite with
        | false => rfl
        | true => rw [FP.isFinite_not_nan hf] at h; cases h
      · rfl
    rw [List.map_cons, List.filter_cons, List.filter_cons, hx]
    split_ifs <;> simp [ih]

/-- **C122, twice.** csv-compressor reads milliseconds and writes seconds.  So take regularly spaced samples of one day, compress and uncompress them - the good case of C63 - and do the same with
the CSV file written: with more than 175 finite values left, the second uncompressing fails, in any build and whatever the settings of the second cycle. -/
theorem C122_twice (E : Ext) (hE : E.Lawful) (p : Profile) (valid : Int → Bool) (a : CompArgs) (ha : a.Valid) (ss : List MSample)
    (t0 step : Int) (h0 : 0 ≤ t0) (hm : 0 < step) (hn : 2 ≤ ss.length) (hlast : t0 + step * ((ss.length : Int) - 1) < 86400)
    (htimes : ss.map (fun s => daySecond s.timestamp) = regular t0 step ss.length)
    (hvalid : ∀ s ∈ ss, valid (s.timestamp.tdiv 1000) = true) (hfin : ∀ s ∈ ss, s.value.isFinite = true)
    (bro : Bytes) (vsri : List Char) (h1 : csvCompress E p valid a ss = .ok (bro, vsri)) (hl : bro.length < 2 ^ 64)
    (out : List MSample) (h2 : csvUncompress E p bro vsri = .ok out) (hmany : 175 < (finiteSamples (out.map (·.value))).length)
    (read : List MSample) (h3 : csvDeserialize csvNumText (csvSerialize csvNumText out) = some read)
    (b : CompArgs) (hb : b.Valid) (bro2 : Bytes) (vsri2 : List Char) (h4 : csvCompress E p valid b read = .ok (bro2, vsri2)) (hl2 : bro2.length < 2 ^ 64) :
    ∃ e, csvUncompress E p bro2 vsri2 = .error e := by
  obtain ⟨bro', vsri', g1, g2⟩ := C63_regular E hE p valid a ha ss t0 step h0 hm hn hlast htimes hvalid hfin
  rw [h1] at g1
  obtain ⟨rfl, rfl⟩ := Prod.mk.inj (Except.ok.inj g1)
  obtain ⟨out', o1, o2, o3⟩ := g2 hl
  rw [h2] at o1
  obtain rfl := Except.ok.inj o1
  have hrange : ∀ s ∈ out, 0 ≤ s.timestamp ∧ s.timestamp < 86400 := by
    intro s hs
    have : s.timestamp ∈ out.map (·.timestamp) := List.mem_map.2 ⟨s, hs, rfl⟩
    rw [o2] at this
    obtain ⟨q, -, hq⟩ := List.mem_map.1 this
    rw [← hq]; exact daySecond_range _
  rw [C95_real out (fun s hs => by have := hrange s hs; unfold InI64; omega)] at h3
  obtain rfl := Option.some.inj h3
  have hlen : out.length = ss.length := by
    have := congrArg List.length o2
    rwa [List.length_map, List.length_map] at this
  have hss : ss.length ≤ 86400 := by nlinarith
  have hcard := card_seconds (ss := out.map fun s => (⟨s.timestamp, oneNaN s.value⟩ : MSample)) (n := 87) (fun s hs => by
    obtain ⟨q, hq, rfl⟩ := List.mem_map.1 hs
    have := hrange q hq
    show daySecond q.timestamp < _
    unfold daySecond
    rw [Int.tdiv_eq_ediv_of_nonneg this.1]
    omega)
  have hvals : (out.map fun s => (⟨s.timestamp, oneNaN s.value⟩ : MSample)).map (·.value) = (out.map (·.value)).map oneNaN := by
    rw [List.map_map, List.map_map]; rfl
  refine C122_limit E hE p valid b hb _ (by rw [List.length_map]; omega) ?_ ?_ bro2 vsri2 h4 hl2
  · intro _; rw [List.length_map, List.length_map]; omega
  · rw [hvals, finite_oneNaN]; omega

/-- In a release build the second compressing always succeeds: nothing warns the user. -/
theorem C122_silent (E : Ext) (hE : E.Lawful) (valid : Int → Bool) (hv : ∀ t, 0 ≤ t → t < 87 → valid t = true) (read : List MSample)
    (hr : ∀ s ∈ read, 0 ≤ s.timestamp ∧ s.timestamp < 86400) (hs : read.Pairwise fun s t => s.timestamp ≤ t.timestamp) (hn : read.length < 2147483648)
    (b : CompArgs) (hb : b.Valid) : ∃ bro vsri, csvCompress E .release valid b read = .ok (bro, vsri) := by
  have hd : ∀ s ∈ read, s.timestamp.tdiv 1000 = s.timestamp / 1000 ∧ daySecond s.timestamp = s.timestamp / 1000 := by
    intro s hs
    have := hr s hs
    unfold daySecond
    rw [Int.tdiv_eq_ediv_of_nonneg this.1]
    omega
  obtain ⟨bro, v, -, h, -⟩ := C122_exact E hE valid b hb read (by
    rw [List.pairwise_map]
    refine hs.imp_of_mem fun ha hb hab => ?_
    rw [(hd _ ha).2, (hd _ hb).2]
    omega) hn (fun s hs => by rw [(hd s hs).1]; have := hr s hs; exact hv _ (by omega) (by omega))
  exact ⟨bro, _, h⟩

/-- **C122 for files.** A CSV file with more finite values than twice the different seconds plus one that csv-compressor compresses: uncompressing the file it wrote fails and writes no CSV file;
only the `.wbro` file is written, with the values. -/
theorem C122_files (env : CsvEnv) (hE : env.E.Lawful) (a b : CsvArgs) (ha : a.comp.Valid) (fs : Fs) (input : FPath) (content : Bytes) (ss : List MSample)
    (hu : a.uncompress = false) (hnc : a.noCompression = false) (hov : a.outputVsri = true) (hub : b.uncompress = true)
    (hf : fs input = some content) (hr : env.readCsv content = some ss) (hn : ss.length < 246 * 131072)
    (hs : (ss.map fun s => daySecond s.timestamp).Pairwise (· ≤ ·)) (hvalid : ∀ s ∈ ss, env.valid (s.timestamp.tdiv 1000) = true) (hp : env.p = .release)
    (hmany : 2 * (secondsOf ss).card + 1 < (finiteSamples (ss.map (·.value))).length) :
    ∃ fs1 bro, csvRun env a fs input = (fs1, .ok ()) ∧ fs1 ((a.base input).withExt "bro") = some bro ∧
      (bro.length < 2 ^ 64 → ∃ fs2 e, csvRun env b fs1 ((a.base input).withExt "bro") = (fs2, .error e) ∧
        ∀ q, q ≠ (b.base ((a.base input).withExt "bro")).withExt "wbro" → fs2 q = fs1 q) := by
  obtain ⟨bro, v, c, c1, c2, -⟩ := C122_exact env.E hE env.valid a.comp ha ss hs (by omega) hvalid
  rw [← hp] at c1
  obtain ⟨fs1, r1, r2, r3, r4⟩ := run_compress hu hnc hov hf hr (by omega) c1
  refine ⟨fs1, bro, r1, r2, fun hl => ?_⟩
  have hfew : FewEnough env.p (ss.map (·.value)) := by intro _; rw [List.length_map]; exact hn
  obtain ⟨e, he⟩ := C122_limit env.E hE env.p env.valid a.comp ha ss (by omega) hfew hmany bro _ c1 hl
  obtain ⟨x, hx⟩ := List.exists_mem_of_length_pos (l := finiteSamples (ss.map (·.value))) (by omega)
  obtain ⟨hx1, hx2⟩ := List.mem_filter.1 hx
  obtain ⟨bs, q1, q2, -⟩ := C53_accepted env.E hE env.p (ss.map (·.value)) a.comp ha hfew x hx1 hx2
  rw [r4] at q1
  obtain rfl := Except.ok.inj q1
  obtain ⟨bs, d1, d2⟩ := C54_end_to_end env.E hE env.p (ss.map (·.value)) a.comp ha hfew
  rw [r4] at d1; obtain rfl := Except.ok.inj d1
  obtain ⟨out, o1, o2⟩ := d2 hl
  have hle : (finiteSamples (ss.map (·.value))).length ≤ ss.length := by
    have := List.length_filter_le (fun x : F64 => x.isFinite) (ss.map (·.value))
    rw [List.length_map] at this
    exact this
  have hday : ∀ y ∈ ss.map (fun s => daySecond s.timestamp), 0 ≤ y ∧ y < 86400 := by
    intro y hy; obtain ⟨s, -, rfl⟩ := List.mem_map.1 hy; exact daySecond_range _
  rw [← hp] at c2
  rw [csvUncompress_eq hday c2 o1 (by omega)] at he
  have hfields := run_fields _ .new v _ new_fields (fun y hy => by have := hday y hy; unfold InI32; omega) c2
  have hadd := C38_bulk env.p out (.inr (by omega))
  have hso : (WavBrro.fromSlice out).getSamples = out := WavBrro.chunksOf_flatten (by decide) _
  obtain ⟨f, g1, -⟩ := C39_round_trip out (by omega) 0 (by decide)
  refine ⟨fs1.write ((b.base ((a.base input).withExt "bro")).withExt "wbro") f, e, ?_, fun q hq => ?_⟩
  · unfold csvRun csvRunUncompress
    rw [if_pos hub, r2]
    dsimp only
    rw [q2]
    dsimp only
    rw [o1]
    dsimp only
    rw [hadd]
    dsimp only
    rw [show fs1 (((a.base input).withExt "bro").withExt "vsri") = some (textBytes v.flush) from r3]
    dsimp only
    rw [loadOrPanic_text, C49_flush_load v hfields]
    dsimp only
    rw [g1]
    dsimp only
    unfold Metric.getSamples
    dsimp only
    rw [hso, he]
  · exact Fs.write_other hq

/-- 200 samples a minute apart, all 1. -/
def minuteDemo : List MSample := (List.range 200).map fun i => ⟨60000 * (i : Int), F64.lit 1⟩

set_option maxRecDepth 20000 in
set_option maxHeartbeats 4000000 in
/-- They meet the hypotheses of `C122_twice`: the first cycle gives them back at their seconds, the second compressing succeeds, the second uncompressing panics. -/
example : minuteDemo.map (fun s => daySecond s.timestamp) = regular 0 60 minuteDemo.length ∧ (0 : Int) + 60 * ((minuteDemo.length : Int) - 1) < 86400 ∧
    okAnd (csvCompress Ext.dummy .release (fun _ => true) { compressor := .constant, error := 0, level := 0 } minuteDemo) (fun f =>
      okAnd (csvUncompress Ext.dummy .release f.1 f.2) (fun out => decide (out = (List.range 200).map fun i => ⟨60 * (i : Int), F64.lit 1⟩) &&
        decide (175 < (finiteSamples (out.map (·.value))).length) &&
        okAnd (csvCompress Ext.dummy .release (fun _ => true) { compressor := .constant, error := 0, level := 0 } out) (fun g =>
          match csvUncompress Ext.dummy .release g.1 g.2 with
          | .error .unwrap => true
          | _ => false))) = true := by decide +kernel

/-- The limit is met by four samples of one second; three can be read back. -/
example : okAnd (csvCompress Ext.dummy .debug (fun _ => true) { compressor := .constant, error := 0, level := 0 }
    [⟨5000, F64.lit 1⟩, ⟨5100, F64.lit 1⟩, ⟨5200, F64.lit 1⟩, ⟨5300, F64.lit 1⟩]) (fun f => decide (f.1.length < 2 ^ 64) &&
      match csvUncompress Ext.dummy .debug f.1 f.2 with
      | .error .unwrap => true
      | _ => false) = true ∧
    secondsOf [⟨5000, F64.lit 1⟩, ⟨5100, F64.lit 1⟩, ⟨5200, F64.lit 1⟩, ⟨5300, F64.lit 1⟩] = {5} ∧
    okAnd (csvCompress Ext.dummy .debug (fun _ => true) { compressor := .constant, error := 0, level := 0 } [⟨5000, F64.lit 1⟩, ⟨5100, F64.lit 1⟩, ⟨5200, F64.lit 1⟩])
      (fun f => okAnd (csvUncompress Ext.dummy .debug f.1 f.2) (fun out => decide (out.length = 3))) = true := by decide +kernel

end Atsc
