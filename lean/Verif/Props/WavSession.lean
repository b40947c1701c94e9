import Verif.Props.Path
import Verif.Props.Session
import Verif.Props.WavMain
/- C111: from a WAV file to samples: wav2wbro, then atsc, then atsc -u, on one disk. -/
namespace Atsc

theorem finite_not_nan {x : F64} (h : x.isFinite = true) : x.isNaN = false := by
  have := of_decide_eq_true h
  exact decide_eq_false (by omega)

theorem finite_kept (data : List F64) : finiteSamples (data.filter fun x => !x.isNaN) = finiteSamples data := by
  unfold finiteSamples
  rw [List.filter_filter]
  refine List.filter_congr fun x _ => ?_
  cases h : x.isFinite with
  | false => rfl
  | true => rw [finite_not_nan h]; rfl

/-- A file with an output gets it. -/
theorem pathSingle_output {env : Env} {a : RunArgs} {disk : Disk} {s : List Char} {c b : Bytes} (hc : disk s = some c) (h : Output env a c b) :
    pathSingle env a disk s = (disk.write (setExtension s a.outExt) b, .ok) := by
  unfold pathSingle
  rw [hc]
  dsimp only
  cases h with
  | uncompress hu h1 h2 h3 h4 =>
    have hb : broRead c = .bytes c := by
      unfold broRead
      rw [if_neg (by omega)]
      exact if_pos h2
    rw [if_pos hu, hb]
    dsimp only
    rw [h3]
    dsimp only
    rw [h4, RunArgs.outExt, if_pos hu]
  | csv hu hv h1 h2 =>
    rw [if_neg (by rw [hu]; decide), if_pos hv, h1]
    dsimp only
    unfold pathCompress
    rw [h2, RunArgs.outExt, if_neg (by rw [hu]; decide)]
  | wbro hu hv h1 h2 =>
    rw [if_neg (by rw [hu]; decide), if_neg (by rw [hv]; decide), h1]
    dsimp only
    unfold pathCompress
    rw [h2, RunArgs.outExt, if_neg (by rw [hu]; decide)]

/-- The file `dir ++ stem ++ .e` and its outputs. -/
theorem setExtension_dotted {dir stem e f : List Char} (hd : dir = [] ∨ ∃ d, dir = d ++ ['/']) (hs : '/' ∉ stem) (hne : stem ≠ [])
    (he : '/' ∉ e) (he' : '.' ∉ e) (hen : e ≠ []) : setExtension (dir ++ stem ++ '.' :: e) f = dir ++ stem ++ '.' :: f := by
  have hp : NameParts (stem ++ '.' :: e) stem (some e) := .dotted rfl he' hne
  have hlast : ∀ x, stem ++ '.' :: e ≠ x ++ ['.'] := by
    intro x hx
    have := congrArg List.getLast? hx
    rw [List.getLast?_append, List.getLast?_append] at this
    cases e with
    | nil => exact hen rfl
    | cons c r =>
      rw [List.getLast?_cons_cons] at this
      have hm : (c :: r).getLast? = some '.' := by
        cases hl : (c :: r).getLast? with
        | none => simp at hl
        | some y => rw [hl] at this; simpa using this
      exact he' (List.mem_of_getLast? hm)
  have hn : Names (dir ++ stem ++ '.' :: e) dir (stem ++ '.' :: e) := by
    refine ⟨by simp, hd, ?_, by simp, hlast [], hlast ['.']⟩
    intro hc
    rcases List.mem_append.mp hc with hc | hc
    · exact hs hc
    · rcases List.mem_cons.mp hc with hc | hc
      · exact absurd hc (by decide)
      · exact he hc
  have := setExtension_names (e := f) hn hp .nil
  rwa [List.append_nil] at this

/-- wav2wbro from its command line. -/
theorem wav_command {hound : Bytes → Option (Nat × List (Option Int))} {p : Profile} {disk : Disk} {ts : List Tok} {said : Said WavKey}
    (hline : Line wavManual ts said) (ho : wavManual.InOrder said) {s : List Char} {c : Bytes} {data : List F64} (hi : (.input, s ++ "wav".toList) ∈ said)
    (hc : disk (s ++ "wav".toList) = some c) (hw : Wav.LooksWav c) (hd : Wav.Values hound c data)
    (hl : (data.filter fun x => !x.isNaN).length ≤ 2 ^ 28) (hv : (∃ v, (.validate, v) ∈ said) → ∀ x ∈ data, x.isNaN = false) :
    ∃ f, wav2wbro hound p disk ts = (disk.write (s ++ "wbro".toList) f, 0) ∧
      ∀ addr, 8 ∣ addr → WavBrro.fromFile addr f = .ok (.samples (data.filter fun x => !x.isNaN)) := by
  have hrun := (run_iff wav_described ts said).2 ⟨hline, ho⟩
  have hin : Seen.value said .input = some (s ++ "wav".toList) := (value_iff ho.2 _ _).2 hi
  have hflag := (flagged_iff ho.2 .validate _).2 rfl
  obtain ⟨fs', r, f, h1, ⟨st, h2, h3, h4⟩, h5, h6⟩ := Wav.C96_converts hound p disk s (Seen.has said .validate) c data hc hw hd hl 16 (by decide)
  have hst : st = s := (List.append_cancel_right h2).symm
  subst hst
  have hfs : fs' = Disk.write disk (st ++ "wbro".toList) f := by
    funext q
    unfold Disk.write
    split_ifs with hq
    · rw [hq]; exact h3
    · exact h4 q hq
  have hr : r = .ok () := h6.2 fun hf => hv (hflag.1 hf)
  refine ⟨f, ?_, fun addr ha => ?_⟩
  · unfold wav2wbro
    rw [hrun]
    dsimp only
    rw [hin]
    dsimp only
    rw [h1, hr, hfs]
  · obtain ⟨fs2, r2, f2, k1, ⟨st2, k2, k3, k4⟩, k5, k6⟩ := Wav.C96_converts hound p disk st (Seen.has said .validate) c data hc hw hd hl addr ha
    rw [h1] at k1
    obtain ⟨rfl, rfl⟩ := Prod.mk.inj k1
    have hst2 : st2 = st := (List.append_cancel_right k2).symm
    subst hst2
    rw [h3] at k3
    rw [Option.some.inj k3]
    exact k5

/-- **C111.** Three commands in a row on one disk: any wav2wbro command line for `dir/stem.wav`, any atsc command line that compresses `dir/stem.wbro` (not as
CSV) and any that uncompresses `dir/stem.bro`.  All end with status 0.  In the end `stem.bro` holds the compressed values of the WAV file that are not NaN,
`stem.wbro` - written by the first command and overwritten by the third - reads back as what they uncompress to, as many as there were finite ones, and
no other file has changed. -/
theorem C111_session (hound : Bytes → Option (Nat × List (Option Int))) (env : Env) (hE : env.E.Lawful) (ha : 8 ∣ env.addr) (disk : Disk)
    (dir stem : List Char) (hdir : dir = [] ∨ ∃ d, dir = d ++ ['/']) (hstem : stem ≠ []) (hslash : '/' ∉ stem)
    (c : Bytes) (data : List F64) (hc : disk (dir ++ stem ++ ".wav".toList) = some c) (hw : Wav.LooksWav c) (hd : Wav.Values hound c data)
    (hl : data.length ≤ 2 ^ 28) (hp : FewEnough env.p data) (hx : ∃ x ∈ data, x.isFinite = true)
    (ts0 ts1 ts2 : List Tok) (said : Said WavKey) (hline : Line wavManual ts0 said) (ho : wavManual.InOrder said)
    (hi : (.input, dir ++ stem ++ ".wav".toList) ∈ said) (hv : (∃ v, (.validate, v) ∈ said) → ∀ x ∈ data, x.isNaN = false)
    (a1 a2 : AtscArgs) (h1 : atscParse ts1 = .ok a1) (h2 : atscParse ts2 = .ok a2) (hu1 : a1.run.uncompress = false) (hv1 : a1.run.csv = false)
    (hu2 : a2.run.uncompress = true) (hi1 : a1.input = dir ++ stem ++ ".wbro".toList) (hi2 : a2.input = dir ++ stem ++ ".bro".toList)
    (node1 node2 : List Char → Node) (hn1 : node1 a1.input = .file) (hn2 : node2 a2.input = .file) :
    ∃ f1 bs, wav2wbro hound env.p disk ts0 = (disk.write (dir ++ stem ++ ".wbro".toList) f1, 0) ∧
      WavBrro.fromFile env.addr f1 = .ok (.samples (data.filter fun x => !x.isNaN)) ∧
      compressData env.E env.p (data.filter fun x => !x.isNaN) a1.run.comp = .ok bs ∧
      pathAtsc env node1 (disk.write (dir ++ stem ++ ".wbro".toList) f1) ts1 =
        ((disk.write (dir ++ stem ++ ".wbro".toList) f1).write (dir ++ stem ++ ".bro".toList) bs, 0) ∧
      (bs.length < 2 ^ 64 → ∃ out f2, decompressData env.E bs = .ok out ∧ out.length = (finiteSamples data).length ∧
        WavBrro.fromFile env.addr f2 = .ok (.samples out) ∧
        pathAtsc env node2 ((disk.write (dir ++ stem ++ ".wbro".toList) f1).write (dir ++ stem ++ ".bro".toList) bs) ts2 =
          ((disk.write (dir ++ stem ++ ".bro".toList) bs).write (dir ++ stem ++ ".wbro".toList) f2, 0)) := by
  have hle : (data.filter fun x => !x.isNaN).length ≤ data.length := List.length_filter_le _ _
  have ew : dir ++ stem ++ ".wav".toList = (dir ++ stem ++ ['.']) ++ "wav".toList := by simp
  have eb : (dir ++ stem ++ ['.']) ++ "wbro".toList = dir ++ stem ++ ".wbro".toList := by simp
  rw [ew] at hc hi
  obtain ⟨f1, k1, k2⟩ := wav_command (p := env.p) hline ho hi hc hw hd (by omega) hv
  rw [eb] at k1
  have hfin := finite_kept data
  obtain ⟨x, hx1, hx2⟩ := hx
  have hxk : x ∈ data.filter fun x => !x.isNaN := List.mem_filter.mpr ⟨hx1, by rw [finite_not_nan hx2]; rfl⟩
  have hv' := C104_ranges ts1 a1 h1
  have hp' : FewEnough env.p (data.filter fun x => !x.isNaN) := fun h => lt_of_le_of_lt hle (hp h)
  obtain ⟨bs, c1, c2, -⟩ := C53_accepted env.E hE env.p _ a1.run.comp hv' hp' x hxk hx2
  obtain ⟨bs', c3, c4⟩ := C54_end_to_end env.E hE env.p _ a1.run.comp hv' hp'
  rw [c1] at c3
  obtain rfl := Except.ok.inj c3
  have hbro : 12 ≤ bs.length ∧ bs.take 4 = [66, 82, 82, 79] := by
    unfold broRead at c2
    by_cases hl : bs.length < 12
    · rw [if_pos hl] at c2; cases c2
    · rw [if_neg hl] at c2
      by_cases h4 : bs.take 4 = brro
      · exact ⟨by omega, h4⟩
      · rw [if_neg h4] at c2; cases c2
  have hne : dir ++ stem ++ ".bro".toList ≠ dir ++ stem ++ ".wbro".toList := fun h => by
    have := List.append_cancel_left h
    exact absurd this (by decide)
  refine ⟨f1, bs, k1, k2 _ ha, c1, ?_, fun hl => ?_⟩
  · unfold pathAtsc pathMain
    rw [h1]
    dsimp only
    rw [hn1, hi1]
    dsimp only
    rw [pathSingle_output (c := f1) (b := bs) (by unfold Disk.write; exact if_pos rfl) (.wbro hu1 hv1 (k2 _ ha) c1)]
    have := setExtension_dotted (f := a1.run.outExt) (e := "wbro".toList) hdir hslash hstem (by decide) (by decide) (by decide)
    dsimp only
    rw [show dir ++ stem ++ ".wbro".toList = dir ++ stem ++ '.' :: "wbro".toList from rfl, this, RunArgs.outExt, if_neg (by rw [hu1]; decide)]
    rfl
  · obtain ⟨out, e1, e2⟩ := c4 hl
    rw [hfin] at e2
    have hle2 : (finiteSamples data).length ≤ data.length := List.length_filter_le _ _
    obtain ⟨f2, g1, g2⟩ := C39_round_trip out (by omega) env.addr ha
    refine ⟨out, f2, e1, e2, g2, ?_⟩
    unfold pathAtsc pathMain
    rw [h2]
    dsimp only
    rw [hn2, hi2]
    dsimp only
    rw [pathSingle_output (c := bs) (b := f2) (by unfold Disk.write; exact if_pos rfl) (.uncompress hu2 hbro.1 hbro.2 e1 g1)]
    have := setExtension_dotted (f := a2.run.outExt) (e := "bro".toList) hdir hslash hstem (by decide) (by decide) (by decide)
    dsimp only
    rw [show setExtension (dir ++ stem ++ ".bro".toList) a2.run.outExt = dir ++ stem ++ ".wbro".toList from
      this.trans (by rw [RunArgs.outExt, if_pos hu2]; rfl)]
    refine Prod.ext ?_ rfl
    funext q
    unfold Disk.write
    by_cases hq : q = dir ++ stem ++ ".wbro".toList
    · simp only [hq, if_true]
    · simp only [if_neg hq]

/-- **C111, `--compressor rle`.** With it the values that come back are those of the finite values of the WAV file (zero or magnitudes in `[2^-64, 2^63)`). -/
theorem C111_rle (hound : Bytes → Option (Nat × List (Option Int))) (env : Env) (hE : env.E.Lawful) (ha : 8 ∣ env.addr) (disk : Disk)
    (dir stem : List Char) (hdir : dir = [] ∨ ∃ d, dir = d ++ ['/']) (hstem : stem ≠ []) (hslash : '/' ∉ stem)
    (c : Bytes) (data : List F64) (hc : disk (dir ++ stem ++ ".wav".toList) = some c) (hw : Wav.LooksWav c) (hd : Wav.Values hound c data)
    (hl : data.length ≤ 2 ^ 28) (hp : FewEnough env.p data) (hx : ∃ x ∈ data, x.isFinite = true) (hin : ∀ x ∈ data, x.isFinite = true → InRange x)
    (ts0 ts1 ts2 : List Tok) (said : Said WavKey) (hline : Line wavManual ts0 said) (ho : wavManual.InOrder said)
    (hi : (.input, dir ++ stem ++ ".wav".toList) ∈ said) (hv : (∃ v, (.validate, v) ∈ said) → ∀ x ∈ data, x.isNaN = false)
    (a1 a2 : AtscArgs) (h1 : atscParse ts1 = .ok a1) (h2 : atscParse ts2 = .ok a2) (hu1 : a1.run.uncompress = false) (hv1 : a1.run.csv = false)
    (hr : a1.run.comp.compressor = .rle)
    (hu2 : a2.run.uncompress = true) (hi1 : a1.input = dir ++ stem ++ ".wbro".toList) (hi2 : a2.input = dir ++ stem ++ ".bro".toList)
    (node1 node2 : List Char → Node) (hn1 : node1 a1.input = .file) (hn2 : node2 a2.input = .file) (d1 d2 d3 : Disk) (n0 n1 n2 : Nat)
    (r0 : wav2wbro hound env.p disk ts0 = (d1, n0)) (r1 : pathAtsc env node1 d1 ts1 = (d2, n1)) (r2 : pathAtsc env node2 d2 ts2 = (d3, n2))
    (hsmall : ∀ bs, d2 (dir ++ stem ++ ".bro".toList) = some bs → bs.length < 2 ^ 64) :
    n0 = 0 ∧ n1 = 0 ∧ n2 = 0 ∧ ∃ f out, d3 (dir ++ stem ++ ".wbro".toList) = some f ∧ WavBrro.fromFile env.addr f = .ok (.samples out) ∧
      SameValues out (finiteSamples data) := by
  obtain ⟨f1, bs, k1, k2, k3, k4, k5⟩ := C111_session hound env hE ha disk dir stem hdir hstem hslash c data hc hw hd hl hp hx ts0 ts1 ts2 said hline ho hi hv
    a1 a2 h1 h2 hu1 hv1 hu2 hi1 hi2 node1 node2 hn1 hn2
  rw [k1] at r0
  obtain ⟨rfl, rfl⟩ := Prod.mk.inj r0
  rw [k4] at r1
  obtain ⟨rfl, rfl⟩ := Prod.mk.inj r1
  have hb := hsmall bs (by unfold Disk.write; exact if_pos rfl)
  obtain ⟨out, f2, g1, -, g3, g4⟩ := k5 hb
  rw [g4] at r2
  obtain ⟨rfl, rfl⟩ := Prod.mk.inj r2
  have hle : (data.filter fun x => !x.isNaN).length ≤ data.length := List.length_filter_le _ _
  have hfin := finite_kept data
  obtain ⟨bs', q1, q2⟩ := C54_rle_equal env.E hE env.p (data.filter fun x => !x.isNaN) a1.run.comp (C104_ranges ts1 a1 h1)
    (fun h => lt_of_le_of_lt hle (hp h)) hr (fun x hx => hin x (List.mem_filter.mp hx).1)
  rw [k3] at q1
  obtain rfl := Except.ok.inj q1
  obtain ⟨out', m1, m2⟩ := q2 hb
  rw [g1] at m1
  obtain rfl := Except.ok.inj m1
  rw [hfin] at m2
  exact ⟨rfl, rfl, rfl, f2, out, by unfold Disk.write; exact if_pos rfl, g3, m2⟩

/-- **C111, the expectation refuted.** A WAV file without a finite value - in particular one that the WAV library cannot read, whose values are none at all - passes
through the first two commands with status 0: only the third ends with status 1, writing nothing. -/
theorem C111_refuted_no_finite (hound : Bytes → Option (Nat × List (Option Int))) (env : Env) (ha : 8 ∣ env.addr) (disk : Disk)
    (dir stem : List Char) (hdir : dir = [] ∨ ∃ d, dir = d ++ ['/']) (hstem : stem ≠ []) (hslash : '/' ∉ stem)
    (c : Bytes) (data : List F64) (hc : disk (dir ++ stem ++ ".wav".toList) = some c) (hw : Wav.LooksWav c) (hd : Wav.Values hound c data)
    (hl : data.length ≤ 2 ^ 28) (hx : ∀ x ∈ data, x.isFinite = false)
    (ts0 ts1 ts2 : List Tok) (said : Said WavKey) (hline : Line wavManual ts0 said) (ho : wavManual.InOrder said)
    (hi : (.input, dir ++ stem ++ ".wav".toList) ∈ said) (hv : (∃ v, (.validate, v) ∈ said) → ∀ x ∈ data, x.isNaN = false)
    (a1 a2 : AtscArgs) (h1 : atscParse ts1 = .ok a1) (h2 : atscParse ts2 = .ok a2) (hu1 : a1.run.uncompress = false) (hv1 : a1.run.csv = false)
    (hu2 : a2.run.uncompress = true) (hi1 : a1.input = dir ++ stem ++ ".wbro".toList) (hi2 : a2.input = dir ++ stem ++ ".bro".toList)
    (node1 node2 : List Char → Node) (hn1 : node1 a1.input = .file) (hn2 : node2 a2.input = .file) :
    ∃ d1 d2, wav2wbro hound env.p disk ts0 = (d1, 0) ∧ pathAtsc env node1 d1 ts1 = (d2, 0) ∧ pathAtsc env node2 d2 ts2 = (d2, 1) := by
  have ew : dir ++ stem ++ ".wav".toList = (dir ++ stem ++ ['.']) ++ "wav".toList := by simp
  have eb : (dir ++ stem ++ ['.']) ++ "wbro".toList = dir ++ stem ++ ".wbro".toList := by simp
  rw [ew] at hc hi
  obtain ⟨f1, k1, k2⟩ := wav_command (p := env.p) hline ho hi hc hw hd (le_trans (List.length_filter_le _ _) hl) hv
  rw [eb] at k1
  obtain ⟨bs, c1, c2, c3⟩ := C53_refuted_empty env.E env.p (data.filter fun x => !x.isNaN) a1.run.comp (fun x h => hx x (List.mem_filter.mp h).1)
  have q1 : pathAtsc env node1 (disk.write (dir ++ stem ++ ".wbro".toList) f1) ts1 =
      ((disk.write (dir ++ stem ++ ".wbro".toList) f1).write (dir ++ stem ++ ".bro".toList) bs, 0) := by
    unfold pathAtsc pathMain
    rw [h1]
    dsimp only
    rw [hn1, hi1]
    dsimp only
    rw [pathSingle_output (c := f1) (b := bs) (by unfold Disk.write; exact if_pos rfl) (.wbro hu1 hv1 (k2 _ ha) c1)]
    have := setExtension_dotted (f := a1.run.outExt) (e := "wbro".toList) hdir hslash hstem (by decide) (by decide) (by decide)
    dsimp only
    rw [show dir ++ stem ++ ".wbro".toList = dir ++ stem ++ '.' :: "wbro".toList from rfl, this, RunArgs.outExt, if_neg (by rw [hu1]; decide)]
    rfl
  refine ⟨_, _, k1, q1, ?_⟩
  unfold pathAtsc pathMain
  rw [h2]
  dsimp only
  rw [hn2, hi2]
  dsimp only
  have hs : ((disk.write (dir ++ stem ++ ".wbro".toList) f1).write (dir ++ stem ++ ".bro".toList) bs) (dir ++ stem ++ ".bro".toList) = some bs := by
    unfold Disk.write; exact if_pos rfl
  unfold pathSingle
  rw [hs]
  dsimp only
  rw [if_pos hu2, c3]
  rfl

/-- The shortest command line of wav2wbro. -/
theorem wav_words (name : List Char) (hne : name ≠ []) (hp : Plain name) :
    Line wavManual [name] [(.input, name)] ∧ wavManual.InOrder [(.input, name)] := by
  refine ⟨Line.word (m := wavManual) hp Line.nil, fun x hx => ?_, List.nodup_singleton _⟩
  rw [List.mem_singleton.1 hx]
  refine ⟨Or.inl ⟨rfl, hne⟩, fun st hst => ?_⟩
  rw [stops_iff wav_described] at hst; cases hst

/-- The hypotheses are met: `wav2wbro d/a.wav`, `atsc d/a.wbro`, `atsc -u d/a.bro` with two values in the WAV file. -/
example : ∃ d1 d2 : Disk, wav2wbro (fun _ => some (1, [some 5, some 6])) .debug
      (fun q => if q = "d/a.wav".toList then some [82, 73, 70, 70, 0, 0, 0, 0, 87, 65, 86, 69] else none) ["d/a.wav".toList] = (d1, 0) ∧
    pathAtsc demoEnv (fun _ => .file) d1 ["d/a.wbro".toList] = (d2, 0) ∧
    ((∀ bs, d2 "d/a.bro".toList = some bs → bs.length < 2 ^ 64) → ∃ d3, pathAtsc demoEnv (fun _ => .file) d2 [['-', 'u'], "d/a.bro".toList] = (d3, 0)) := by
  obtain ⟨a1, p1, i1, u1, v1, -⟩ := (C107_words "d/a.wbro".toList (by decide) (Or.inr (by decide +kernel))).1
  obtain ⟨a2, p2, i2, u2⟩ := (C107_words "d/a.bro".toList (by decide) (Or.inr (by decide +kernel))).2
  obtain ⟨w1, w2⟩ := wav_words "d/a.wav".toList (by decide) (Or.inr (by decide +kernel))
  have hval : Wav.Values (fun _ => some (1, [some 5, some 6])) [82, 73, 70, 70, 0, 0, 0, 0, 87, 65, 86, 69] [FP.ofBits 5, FP.ofBits 6] :=
    Or.inr ⟨1, [some 5, some 6], rfl, by decide +kernel⟩
  obtain ⟨f1, bs, k1, -, -, k4, k5⟩ := C111_session (fun _ => some (1, [some 5, some 6])) demoEnv Ext.dummy_lawful (by decide)
    (fun q => if q = "d/a.wav".toList then some [82, 73, 70, 70, 0, 0, 0, 0, 87, 65, 86, 69] else none) "d/".toList "a".toList
    (Or.inr ⟨"d".toList, by decide⟩) (by decide) (by decide) [82, 73, 70, 70, 0, 0, 0, 0, 87, 65, 86, 69] [FP.ofBits 5, FP.ofBits 6] (if_pos rfl)
    (by unfold Wav.LooksWav; decide) hval (by decide) (fun _ => by decide) ⟨FP.ofBits 5, by simp, by decide +kernel⟩ ["d/a.wav".toList] ["d/a.wbro".toList] [['-', 'u'], "d/a.bro".toList]
    _ w1 w2 List.mem_cons_self (fun ⟨v, hv⟩ => by simp at hv) a1 a2 p1 p2 u1 v1 u2 i1 i2 (fun _ => .file) (fun _ => .file) rfl rfl
  refine ⟨_, _, k1, k4, fun hb => ?_⟩
  obtain ⟨out, f2, -, -, -, g4⟩ := k5 (hb bs (by unfold Disk.write; exact if_pos rfl))
  exact ⟨_, g4⟩

end Atsc
