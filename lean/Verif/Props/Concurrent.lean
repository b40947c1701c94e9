import Verif.Model.Concurrent
import Verif.Props.WavSession
import Mathlib.Algebra.Order.BigOperators.Group.Finset
/- C112: several runs of atsc at the same time. -/
namespace Atsc

/-- What the run does when it is alone. -/
def Job.alone (j : Job) (disk : Disk) : Disk × Ended := pathSingle j.env j.args disk j.input

theorem Job.output_eq (j : Job) : j.output = setExtension j.input j.args.outExt := rfl

/-- The content is being read. -/
def Job.ready (j : Job) (c : Bytes) : Prop := (j.args.uncompress = false ∧ j.args.csv = true) ∨ j.first = .head [] ∧ j.afterHead (c.take 12) = .reading []

theorem Job.first_cases (j : Job) : (j.first = .reading [] ∧ j.args.uncompress = false ∧ j.args.csv = true) ∨
    (j.first = .head [] ∧ (j.args.uncompress = true ∨ j.args.csv = false)) := by
  unfold Job.first
  cases hu : j.args.uncompress <;> cases hv : j.args.csv <;> simp

theorem Job.afterHead_alone {j : Job} {disk : Disk} {c : Bytes} (hc : disk j.input = some c) (hf : j.first = .head []) :
    (∃ e, j.afterHead (c.take 12) = .ended e ∧ j.alone disk = (disk, e)) ∨ j.afterHead (c.take 12) = .reading [] := by
  have hm : j.args.uncompress = true ∨ j.args.csv = false := by
    rcases j.first_cases with h | h
    · rw [h.1] at hf; cases hf
    · exact h.2
  unfold Job.afterHead Job.alone pathSingle
  rw [hc]
  dsimp only
  by_cases hl : c.length < 12
  · have h1 : (c.take 12).length < 12 := by rw [List.length_take]; omega
    rw [if_pos h1]
    refine Or.inl ⟨.err, rfl, ?_⟩
    cases hu : j.args.uncompress with
    | true =>
      rw [if_pos rfl]
      unfold broRead
      rw [if_pos hl]
    | false =>
      rcases hm with hm | hm
      · rw [hm] at hu; cases hu
      · rw [if_neg (by decide), if_neg (by rw [hm]; decide)]
        unfold WavBrro.fromFile
        rw [if_pos hl]
  · have h1 : ¬ (c.take 12).length < 12 := by rw [List.length_take]; omega
    rw [if_neg h1]
    cases hu : j.args.uncompress with
    | true =>
      rw [if_pos rfl, if_pos rfl]
      have ht : (c.take 12).take 4 = c.take 4 := by rw [List.take_take]; rfl
      rw [ht]
      by_cases hb : c.take 4 = brro
      · right; rw [if_pos hb]
      · left
        rw [if_neg hb]
        refine ⟨.ok, rfl, ?_⟩
        unfold broRead
        rw [if_neg hl, if_neg hb]
    | false =>
      rcases hm with hm | hm
      · rw [hm] at hu; cases hu
      · simp only [Bool.false_eq_true, if_false, hm]
        have s1 : WavBrro.sliceAt (c.take 12) 0 4 = WavBrro.sliceAt c 0 4 := by
          unfold WavBrro.sliceAt; simp [List.take_take]
        have s2 : WavBrro.sliceAt (c.take 12) 8 4 = WavBrro.sliceAt c 8 4 := by
          unfold WavBrro.sliceAt; rw [List.drop_take, List.take_take]; rfl
        rw [s1, s2]
        by_cases hb : WavBrro.sliceAt c 0 4 = WavBrro.wbro ∧ WavBrro.sliceAt c 8 4 = WavBrro.wbro
        · right; rw [if_pos hb]
        · left
          rw [if_neg hb]
          refine ⟨.err, rfl, ?_⟩
          unfold WavBrro.fromFile
          rw [if_neg hl, if_pos hb]

theorem Job.afterRead_alone {j : Job} {disk : Disk} {c : Bytes} (hc : disk j.input = some c) (hr : j.ready c) :
    (∃ e, j.afterRead (c.drop j.from) = .ended e ∧ j.alone disk = (disk, e)) ∨
    ∃ b, j.afterRead (c.drop j.from) = .creating b ∧ j.alone disk = (disk.write j.output b, .ok) := by
  have comp : ∀ d, j.args.uncompress = false →
      (∃ e, j.compressed d = .ended e ∧ pathCompress j.env j.args disk j.input d = (disk, e)) ∨
      ∃ b, j.compressed d = .creating b ∧ pathCompress j.env j.args disk j.input d = (disk.write j.output b, .ok) := by
    intro d hu
    unfold Job.compressed pathCompress Job.output
    rw [if_neg (by rw [hu]; decide)]
    cases compressData j.env.E j.env.p d j.args.comp with
    | error e => exact Or.inl ⟨_, rfl, rfl⟩
    | ok bs => exact Or.inr ⟨bs, rfl, rfl⟩
  unfold Job.afterRead Job.alone pathSingle
  rw [hc]
  dsimp only
  rcases hr with ⟨hu, hv⟩ | ⟨hf, hh⟩
  · have hfrom : j.from = 0 := by unfold Job.from; rw [hu, hv]; rfl
    rw [hfrom, List.drop_zero, if_neg (by rw [hu]; decide), if_pos hv, if_neg (by rw [hu]; decide), if_pos hv]
    cases readCsv j.env j.args c with
    | error e => exact Or.inl ⟨_, rfl, rfl⟩
    | ok r =>
      cases r with
      | error e => exact Or.inl ⟨_, rfl, rfl⟩
      | ok d => exact comp d hu
  · have hm : j.args.uncompress = true ∨ j.args.csv = false := by
      rcases j.first_cases with h | h
      · rw [h.1] at hf; cases hf
      · exact h.2
    unfold Job.afterHead at hh
    have hl : ¬ c.length < 12 := by
      intro hl
      rw [if_pos (by rw [List.length_take]; omega)] at hh
      cases hh
    rw [if_neg (by rw [List.length_take]; omega)] at hh
    cases hu : j.args.uncompress with
    | true =>
      have hfrom : j.from = 0 := by unfold Job.from; rw [hu]; simp
      rw [hfrom, List.drop_zero, if_pos rfl, if_pos rfl]
      rw [hu, if_pos rfl] at hh
      have ht : (c.take 12).take 4 = c.take 4 := by rw [List.take_take]; rfl
      rw [ht] at hh
      have hb : c.take 4 = brro := by
        by_contra hb
        rw [if_neg hb] at hh
        cases hh
      have hbr : broRead c = .bytes c := by unfold broRead; rw [if_neg hl, if_pos hb]
      rw [hbr]
      dsimp only
      cases decompressData j.env.E c with
      | error e => exact Or.inl ⟨_, rfl, rfl⟩
      | ok d =>
        dsimp only
        cases WavBrro.toFileWithData d with
        | error e => exact Or.inl ⟨_, rfl, rfl⟩
        | ok out => exact Or.inr ⟨out, rfl, by unfold Job.output; rw [if_pos hu]⟩
    | false =>
      rcases hm with hm | hm
      · rw [hm] at hu; cases hu
      · have hfrom : j.from = 12 := by unfold Job.from; rw [hu, hm]; rfl
        rw [hfrom, if_neg (by decide), if_neg (by rw [hm]; decide), if_neg (by decide), if_neg (by rw [hm]; decide)]
        rw [hu, if_neg (by decide)] at hh
        have s1 : WavBrro.sliceAt (c.take 12) 0 4 = WavBrro.sliceAt c 0 4 := by
          unfold WavBrro.sliceAt; simp [List.take_take]
        have s2 : WavBrro.sliceAt (c.take 12) 8 4 = WavBrro.sliceAt c 8 4 := by
          unfold WavBrro.sliceAt; rw [List.drop_take, List.take_take]; rfl
        rw [s1, s2] at hh
        have hb : WavBrro.sliceAt c 0 4 = WavBrro.wbro ∧ WavBrro.sliceAt c 8 4 = WavBrro.wbro := by
          by_contra hb
          rw [if_neg hb] at hh
          cases hh
        unfold WavBrro.fromFile
        rw [if_neg hl, if_neg (not_not.mpr hb)]
        cases WavBrro.fromBytes j.env.addr (c.drop 12) with
        | error e => exact Or.inl ⟨_, rfl, rfl⟩
        | ok w =>
          rw [ok_bind]
          exact comp _ hu

/-! ### The invariant -/

/-- The run, alone, writes `b` (whatever is in files other than its input). -/
def Job.Makes (j : Job) (d0 : Disk) (b : Bytes) : Prop := ∀ d : Disk, d j.input = d0 j.input → j.alone d = (d.write j.output b, .ok)

/-- What is known when a run has got to a phase: `d0` are the files at the beginning, `d` the files now. -/
def Job.Inv (j : Job) (d0 d : Disk) : Phase → Prop
  | .start => d j.input = d0 j.input ∧ d j.output = d0 j.output
  | .head got => d j.input = d0 j.input ∧ d j.output = d0 j.output ∧ j.first = .head [] ∧ ∃ c, d0 j.input = some c ∧ got = c.take got.length ∧ got.length ≤ 12
  | .reading got => d j.input = d0 j.input ∧ d j.output = d0 j.output ∧ ∃ c, d0 j.input = some c ∧ got = (c.drop j.from).take got.length ∧ j.ready c
  | .creating b => d j.output = d0 j.output ∧ j.Makes d0 b
  | .writing pos rest => ∃ b, j.Makes d0 b ∧ pos ≤ b.length ∧ rest = b.drop pos ∧ d j.output = some (b.take pos)
  | .ended e => (j.alone d0).2 = e ∧ d j.output = (j.alone d0).1 j.output

theorem Job.Inv.congr {j : Job} {d0 d d' : Disk} {ph : Phase} (h : j.Inv d0 d ph) (hi : d' j.input = d j.input) (ho : d' j.output = d j.output) :
    j.Inv d0 d' ph := by
  cases ph <;> unfold Job.Inv at h ⊢ <;> first | (rw [hi, ho]; exact h) | (rw [ho]; exact h)

theorem Job.Step.other {j : Job} {ph ph' : Phase} {d d' : Disk} (h : j.Step ph d ph' d') {q : List Char} (hq : q ≠ j.output) : d' q = d q := by
  cases h <;> first | rfl | exact if_neg hq

theorem take_more {l : Bytes} {k n : Nat} (h : k ≤ l.length) : l.take k ++ (l.drop k).take n = l.take (k + ((l.drop k).take n).length) := by
  rw [List.take_add]
  congr 1
  rw [List.length_take]
  by_cases hn : n ≤ (l.drop k).length
  · rw [Nat.min_eq_left hn]
  · rw [Nat.min_eq_right (by omega), List.take_of_length_le (by omega), List.take_length]

theorem patch_next {b : Bytes} {pos n : Nat} (h : pos ≤ b.length) :
    patch (b.take pos) pos ((b.drop pos).take n) = b.take (pos + ((b.drop pos).take n).length) := by
  unfold patch
  have hl : (b.take pos).length = pos := by rw [List.length_take]; omega
  rw [hl, Nat.sub_self, List.replicate_zero, List.append_nil, List.take_of_length_le (le_of_eq hl),
    List.drop_eq_nil_of_le (as := b.take pos) (by omega), List.append_nil, take_more h]

/-- What is left to do for a run, in steps. -/
def Job.rank (j : Job) (d0 : Disk) : Phase → Nat
  | .start => ((d0 j.input).getD []).length + (((j.alone d0).1 j.output).getD []).length + 18
  | .head got => (12 - got.length) + ((d0 j.input).getD []).length + (((j.alone d0).1 j.output).getD []).length + 5
  | .reading got => (((d0 j.input).getD []).length - got.length) + (((j.alone d0).1 j.output).getD []).length + 4
  | .creating b => b.length + 3
  | .writing _ rest => rest.length + 2
  | .ended _ => 1

theorem Job.Step.inv {j : Job} {ph ph' : Phase} {d0 d d' : Disk} (h : j.Step ph d ph' d') (hi : j.Inv d0 d ph) :
    j.Inv d0 d' ph' ∧ j.rank d0 ph' < j.rank d0 ph := by
  cases h with
  | missing hc =>
    obtain ⟨h1, h2⟩ := hi
    have : j.alone d0 = (d0, .err) := by
      unfold Job.alone pathSingle
      rw [← h1, hc]
    refine ⟨⟨by rw [this], by rw [this]; exact h2⟩, ?_⟩
    dsimp only [Job.rank]; omega
  | @found _ c hc =>
    obtain ⟨h1, h2⟩ := hi
    rcases j.first_cases with ⟨hf, hu, hv⟩ | ⟨hf, hm⟩
    · rw [hf]
      refine ⟨⟨h1, h2, c, by rw [← h1]; exact hc, by simp, Or.inl ⟨hu, hv⟩⟩, ?_⟩
      dsimp only [Job.rank]; simp only [List.length_nil]; omega
    · rw [hf]
      refine ⟨⟨h1, h2, hf, c, by rw [← h1]; exact hc, by simp, by simp⟩, ?_⟩
      dsimp only [Job.rank]; simp only [List.length_nil]; omega
  | @headMore _ c got n hc hl hn h12 =>
    obtain ⟨h1, h2, hf, c', hc', hg, hle⟩ := hi
    rw [h1, hc'] at hc
    obtain rfl := Option.some.inj hc
    have hlen : ((c'.drop got.length).take n).length = min n (c'.length - got.length) := by rw [List.length_take, List.length_drop]
    refine ⟨⟨h1, h2, hf, c', hc', ?_, ?_⟩, ?_⟩
    · conv_lhs => rw [hg]
      rw [List.length_append, List.length_take, Nat.min_eq_left (le_of_lt hl)]
      exact take_more (le_of_lt hl)
    · rw [List.length_append, hlen]; omega
    · dsimp only [Job.rank]
      rw [List.length_append, hlen]
      omega
  | @headDone _ c got hc hd =>
    obtain ⟨h1, h2, hf, c', hc', hg, hle⟩ := hi
    rw [h1, hc'] at hc
    obtain rfl := Option.some.inj hc
    have he : got = c'.take 12 := by
      rcases hd with hd | hd
      · rw [hg, hd]
      · rw [hg, List.take_of_length_le hd, List.take_of_length_le (by omega)]
    rw [he]
    rcases Job.afterHead_alone hc' hf with ⟨e, ha, hb⟩ | ha
    · rw [ha]
      refine ⟨⟨by rw [hb], by rw [hb]; exact h2⟩, ?_⟩
      dsimp only [Job.rank]; omega
    · rw [ha]
      refine ⟨⟨h1, h2, c', hc', by simp, Or.inr ⟨hf, ha⟩⟩, ?_⟩
      dsimp only [Job.rank]; simp only [List.length_nil]; omega
  | @readMore _ c got n hc hl hn =>
    obtain ⟨h1, h2, c', hc', hg, hr⟩ := hi
    rw [h1, hc'] at hc
    obtain rfl := Option.some.inj hc
    have hle : got.length ≤ (c'.drop j.from).length := by rw [List.length_drop]; omega
    have hdd : c'.drop (j.from + got.length) = (c'.drop j.from).drop got.length := by rw [List.drop_drop]
    have hlen : ((c'.drop (j.from + got.length)).take n).length = min n (c'.length - (j.from + got.length)) := by rw [List.length_take, List.length_drop]
    refine ⟨⟨h1, h2, c', hc', ?_, hr⟩, ?_⟩
    · rw [hdd]
      conv_lhs => rw [hg]
      rw [List.length_append, List.length_take, Nat.min_eq_left hle]
      exact take_more hle
    · dsimp only [Job.rank]
      rw [List.length_append, hlen, hc']
      dsimp only [Option.getD_some]
      omega
  | @readDone _ c got hc hl =>
    obtain ⟨h1, h2, c', hc', hg, hr⟩ := hi
    rw [h1, hc'] at hc
    obtain rfl := Option.some.inj hc
    have he : got = c'.drop j.from := by rw [hg, List.take_of_length_le (by rw [List.length_drop]; omega)]
    rw [he]
    rcases Job.afterRead_alone hc' hr with ⟨e, ha, hb⟩ | ⟨b, ha, hb⟩
    · rw [ha]
      refine ⟨⟨by rw [hb], by rw [hb]; exact h2⟩, ?_⟩
      dsimp only [Job.rank]; omega
    · rw [ha]
      refine ⟨⟨h2, fun d1 hd1 => ?_⟩, ?_⟩
      · rcases Job.afterRead_alone (hd1.trans hc') hr with ⟨e, ha', -⟩ | ⟨b', ha', hb'⟩
        · rw [ha] at ha'; cases ha'
        · rw [ha] at ha'; cases ha'; exact hb'
      dsimp only [Job.rank]
      rw [hb]
      have : d0.write j.output b j.output = some b := if_pos rfl
      dsimp only
      rw [this]
      dsimp only [Option.getD_some]
      omega
  | @create _ b =>
    obtain ⟨h1, h2⟩ := hi
    refine ⟨⟨b, h2, Nat.zero_le _, rfl, if_pos rfl⟩, ?_⟩
    dsimp only [Job.rank]; omega
  | @write _ pos n c rest hc hr hn =>
    obtain ⟨b, h1, h2, rfl, h4⟩ := hi
    rw [h4] at hc
    obtain rfl := Option.some.inj hc
    have hlen : ((b.drop pos).take n).length = min n (b.length - pos) := by rw [List.length_take, List.length_drop]
    have hpos : pos < b.length := by
      by_contra hp
      exact hr (List.drop_eq_nil_of_le (by omega))
    refine ⟨⟨b, h1, by rw [hlen]; omega, ?_, ?_⟩, ?_⟩
    · rw [hlen, List.drop_drop]
      by_cases hm : n ≤ b.length - pos
      · rw [Nat.min_eq_left hm]
      · rw [List.drop_eq_nil_of_le (by omega), List.drop_eq_nil_of_le (by omega)]
    · rw [patch_next h2]; exact if_pos rfl
    · dsimp only [Job.rank]
      rw [List.length_drop, List.length_drop]
      omega
  | @close _ pos =>
    obtain ⟨b, h1, h2, h3, h4⟩ := hi
    have hle : b.length ≤ pos := List.drop_eq_nil_iff.mp h3.symm
    refine ⟨⟨by rw [h1 d0 rfl], ?_⟩, ?_⟩
    · rw [h1 d0 rfl, h4, List.take_of_length_le hle]
      exact (if_pos rfl).symm
    · dsimp only [Job.rank]; simp

/-- The runs do not get in each other's way: no run writes a file another reads or writes. -/
def Apart {ι : Type} (jobs : ι → Job) : Prop := ∀ i k, i ≠ k → (jobs i).output ≠ (jobs k).input ∧ (jobs i).output ≠ (jobs k).output

theorem exec_inv {ι : Type} [DecidableEq ι] {jobs : ι → Job} (ha : Apart jobs) {d0 : Disk} {sched : List ι} {t : Sys ι} (h : Exec jobs sched (.begin d0) t) :
    (∀ i, (jobs i).Inv d0 t.disk (t.at_ i)) ∧ (∀ q, (∀ i, q ≠ (jobs i).output) → t.disk q = d0 q) ∧
    ∀ i, sched.count i + (jobs i).rank d0 (t.at_ i) ≤ (jobs i).rank d0 .start := by
  generalize hs : Sys.begin d0 = s at h
  induction h with
  | nil s => subst hs; exact ⟨fun i => ⟨rfl, rfl⟩, fun _ _ => rfl, fun i => by simp [Sys.begin]⟩
  | @step sched s t i ph d he hst ih =>
    obtain ⟨h1, h2, h3⟩ := ih hs
    obtain ⟨g1, g2⟩ := hst.inv (h1 i)
    refine ⟨fun k => ?_, fun q hq => ?_, fun k => ?_⟩
    · by_cases hk : k = i
      · subst hk; simpa using g1
      · dsimp only
        rw [if_neg hk]
        obtain ⟨a1, a2⟩ := ha i k (Ne.symm hk)
        exact (h1 k).congr (hst.other (Ne.symm a1)) (hst.other (Ne.symm a2))
    · exact (hst.other (hq i)).trans (h2 q hq)
    · rw [List.count_append]
      by_cases hk : k = i
      · subst hk
        have := h3 k
        simp only [List.count_singleton_self, if_true]
        omega
      · have := h3 k
        rw [List.count_singleton, if_neg (by simpa using Ne.symm hk)]
        dsimp only
        rw [if_neg hk]
        omega

theorem Job.Inv.progress {j : Job} {d0 d : Disk} {ph : Phase} (h : j.Inv d0 d ph) (hn : ∀ e, ph ≠ .ended e) : ∃ ph' d', j.Step ph d ph' d' := by
  cases ph with
  | start =>
    cases hc : d j.input with
    | none => exact ⟨_, _, .missing hc⟩
    | some c => exact ⟨_, _, .found hc⟩
  | head got =>
    obtain ⟨h1, -, -, c, hc, -, hle⟩ := h
    rw [← h1] at hc
    by_cases hd : got.length = 12 ∨ c.length ≤ got.length
    · exact ⟨_, _, .headDone hc hd⟩
    · rw [not_or] at hd
      exact ⟨_, _, .headMore (n := 1) hc (by omega) (by omega) (by omega)⟩
  | reading got =>
    obtain ⟨h1, -, c, hc, -, -⟩ := h
    rw [← h1] at hc
    by_cases hd : c.length ≤ j.from + got.length
    · exact ⟨_, _, .readDone hc hd⟩
    · exact ⟨_, _, .readMore (n := 1) hc (by omega) (by omega)⟩
  | creating b => exact ⟨_, _, .create⟩
  | writing pos rest =>
    obtain ⟨b, -, -, -, h4⟩ := h
    by_cases hr : rest = []
    · subst hr; exact ⟨_, _, .close⟩
    · exact ⟨_, _, .write (n := 1) h4 hr (by omega)⟩
  | ended e => exact absurd rfl (hn e)

/-! ### The theorems -/

/-- **C112, the end of a run.** Any number of runs of atsc at the same time, their file operations coming in any order; no run writes a file another reads or
writes.  Then a run that has ended has ended as it would have alone, and its output file is what it would have been. -/
theorem C112_alone {ι : Type} [DecidableEq ι] (jobs : ι → Job) (ha : Apart jobs) (disk : Disk) (sched : List ι) (t : Sys ι)
    (h : Exec jobs sched (.begin disk) t) (i : ι) (e : Ended) (he : t.at_ i = .ended e) :
    e = (pathSingle (jobs i).env (jobs i).args disk (jobs i).input).2 ∧
    t.disk (jobs i).output = (pathSingle (jobs i).env (jobs i).args disk (jobs i).input).1 (jobs i).output := by
  have := (exec_inv ha h).1 i
  rw [he] at this
  exact ⟨this.1.symm, this.2⟩

/-- **C112, at every moment.** Files that are no run's output are as they were; the output file of a run is as it was or a beginning of what the run
produces. -/
theorem C112_always {ι : Type} [DecidableEq ι] (jobs : ι → Job) (ha : Apart jobs) (disk : Disk) (sched : List ι) (t : Sys ι)
    (h : Exec jobs sched (.begin disk) t) :
    (∀ q, (∀ i, q ≠ (jobs i).output) → t.disk q = disk q) ∧
    ∀ i, t.disk (jobs i).output = disk (jobs i).output ∨
      ∃ b pos, pathSingle (jobs i).env (jobs i).args disk (jobs i).input = (disk.write (jobs i).output b, .ok) ∧ t.disk (jobs i).output = some (b.take pos) := by
  obtain ⟨h1, h2, -⟩ := exec_inv ha h
  refine ⟨h2, fun i => ?_⟩
  have := h1 i
  generalize hph : t.at_ i = ph at this
  cases ph with
  | start => exact Or.inl this.2
  | head got => exact Or.inl this.2.1
  | reading got => exact Or.inl this.2.1
  | creating b => exact Or.inl this.1
  | writing pos rest =>
    obtain ⟨b, k1, -, -, k4⟩ := this
    exact Or.inr ⟨b, pos, k1 disk rfl, k4⟩
  | ended e =>
    obtain ⟨-, k2⟩ := this
    rcases pathSingle_cases (jobs i).env (jobs i).args disk (jobs i).input with ⟨_, k⟩ | ⟨ko, c, _, ⟨_, k⟩ | ⟨b, _, k⟩⟩
    · left; rw [k2]; exact congrFun k _
    · left; rw [k2]; exact congrFun k _
    · right
      refine ⟨b, b.length, Prod.ext k ko, ?_⟩
      rw [k2, List.take_length]
      unfold Job.alone
      rw [k]
      exact if_pos rfl

/-- **C112, no waiting.** Whatever the others have done, a run that has not ended can go on. -/
theorem C112_progress {ι : Type} [DecidableEq ι] (jobs : ι → Job) (ha : Apart jobs) (disk : Disk) (sched : List ι) (t : Sys ι)
    (h : Exec jobs sched (.begin disk) t) (i : ι) (hn : ∀ e, t.at_ i ≠ .ended e) : ∃ t', Exec jobs (sched ++ [i]) (.begin disk) t' := by
  obtain ⟨ph, d, hs⟩ := ((exec_inv ha h).1 i).progress hn
  exact ⟨_, .step h hs⟩

/-- **C112, to the end.** However far finitely many runs have got, they can all be brought to their ends. -/
theorem C112_completes {ι : Type} [DecidableEq ι] [Fintype ι] (jobs : ι → Job) (ha : Apart jobs) (disk : Disk) (sched : List ι) (t : Sys ι)
    (h : Exec jobs sched (.begin disk) t) : ∃ more t', Exec jobs (sched ++ more) (.begin disk) t' ∧ ∀ i, ∃ e, t'.at_ i = .ended e := by
  generalize hm : ∑ i, (jobs i).rank disk (t.at_ i) = m
  induction m using Nat.strong_induction_on generalizing sched t with
  | _ m ih =>
    by_cases hall : ∀ i, ∃ e, t.at_ i = .ended e
    · exact ⟨[], t, by rw [List.append_nil]; exact h, hall⟩
    · rw [not_forall] at hall
      obtain ⟨i, hi⟩ := hall
      have hinv := (exec_inv ha h).1 i
      obtain ⟨ph, d, hs⟩ := hinv.progress (fun e he => hi ⟨e, he⟩)
      have hx := Exec.step h hs
      have hlt : ∑ k, (jobs k).rank disk (if k = i then ph else t.at_ k) < m := by
        rw [← hm]
        refine Finset.sum_lt_sum (fun k _ => ?_) ⟨i, Finset.mem_univ i, ?_⟩
        · by_cases hk : k = i
          · subst hk; rw [if_pos rfl]; exact le_of_lt (hs.inv hinv).2
          · rw [if_neg hk]
        · rw [if_pos rfl]; exact (hs.inv hinv).2
      obtain ⟨more, t', g1, g2⟩ := ih _ hlt _ _ hx rfl
      exact ⟨i :: more, t', by rw [List.append_assoc] at g1; exact g1, g2⟩

/-- **C112, termination.** In every execution a run makes at most as many steps as its input and output have bytes, and 17. -/
theorem C112_bounded {ι : Type} [DecidableEq ι] (jobs : ι → Job) (ha : Apart jobs) (disk : Disk) (sched : List ι) (t : Sys ι)
    (h : Exec jobs sched (.begin disk) t) (i : ι) :
    sched.count i ≤ ((disk (jobs i).input).getD []).length +
      (((pathSingle (jobs i).env (jobs i).args disk (jobs i).input).1 (jobs i).output).getD []).length + 17 := by
  have h1 := (exec_inv ha h).2.2 i
  have h2 : 1 ≤ (jobs i).rank disk (t.at_ i) := by cases t.at_ i <;> dsimp only [Job.rank] <;> omega
  have h0 : (jobs i).rank disk .start = ((disk (jobs i).input).getD []).length +
      (((pathSingle (jobs i).env (jobs i).args disk (jobs i).input).1 (jobs i).output).getD []).length + 18 := rfl
  rw [h0] at h1
  omega

theorem pathSingle_local {env : Env} {a : RunArgs} {d d' : Disk} {s : List Char} (h : d s = d' s) :
    (pathSingle env a d s).2 = (pathSingle env a d' s).2 ∧ ∀ q, (q ≠ setExtension s a.outExt → (pathSingle env a d s).1 q = d q) ∧
      (d q = d' q → (pathSingle env a d s).1 q = (pathSingle env a d' s).1 q) := by
  have wr : ∀ (b : Bytes) (o : List Char), o = setExtension s a.outExt → (Ended.ok = Ended.ok) ∧ ∀ q, (q ≠ setExtension s a.outExt → d.write o b q = d q) ∧
      (d q = d' q → d.write o b q = d'.write o b q) := by
    rintro b o rfl
    refine ⟨rfl, fun q => ⟨fun hq => if_neg hq, fun hq => ?_⟩⟩
    unfold Disk.write
    split_ifs
    · rfl
    · exact hq
  have comp : ∀ x, a.uncompress = false → (pathCompress env a d s x).2 = (pathCompress env a d' s x).2 ∧ ∀ q, (q ≠ setExtension s a.outExt → (pathCompress env a d s x).1 q = d q) ∧
      (d q = d' q → (pathCompress env a d s x).1 q = (pathCompress env a d' s x).1 q) := by
    intro x hu
    unfold pathCompress
    cases compressData env.E env.p x a.comp with
    | error e => exact ⟨rfl, fun q => ⟨fun _ => rfl, fun hq => hq⟩⟩
    | ok bs => exact wr bs _ (by rw [RunArgs.outExt, if_neg (by rw [hu]; decide)])
  unfold pathSingle
  rw [h]
  cases d' s with
  | none => exact ⟨rfl, fun q => ⟨fun _ => rfl, fun hq => hq⟩⟩
  | some c =>
    dsimp only
    split_ifs with hu hv
    · cases broRead c with
      | eof => exact ⟨rfl, fun q => ⟨fun _ => rfl, fun hq => hq⟩⟩
      | notBro => exact ⟨rfl, fun q => ⟨fun _ => rfl, fun hq => hq⟩⟩
      | bytes bs =>
        dsimp only
        cases decompressData env.E bs with
        | error e => exact ⟨rfl, fun q => ⟨fun _ => rfl, fun hq => hq⟩⟩
        | ok x =>
          dsimp only
          cases WavBrro.toFileWithData x with
          | error e => exact ⟨rfl, fun q => ⟨fun _ => rfl, fun hq => hq⟩⟩
          | ok out => exact wr out _ (by rw [RunArgs.outExt, if_pos hu])
    · cases readCsv env a c with
      | error e => exact ⟨rfl, fun q => ⟨fun _ => rfl, fun hq => hq⟩⟩
      | ok r =>
        cases r with
        | error e => exact ⟨rfl, fun q => ⟨fun _ => rfl, fun hq => hq⟩⟩
        | ok x => exact comp x (by simpa using hu)
    · cases WavBrro.fromFile env.addr c with
      | error e => exact ⟨rfl, fun q => ⟨fun _ => rfl, fun hq => hq⟩⟩
      | ok r =>
        cases r with
        | ioError => exact ⟨rfl, fun q => ⟨fun _ => rfl, fun hq => hq⟩⟩
        | formatError => exact ⟨rfl, fun q => ⟨fun _ => rfl, fun hq => hq⟩⟩
        | samples x => exact comp x (by simpa using hu)

/-- The files after the runs have been done one after the other, in the order of the list. -/
def inTurn {ι : Type} (jobs : ι → Job) (disk : Disk) (l : List ι) : Disk :=
  l.foldl (fun d i => (pathSingle (jobs i).env (jobs i).args d (jobs i).input).1) disk

theorem inTurn_spec {ι : Type} {jobs : ι → Job} (ha : Apart jobs) {d0 : Disk} : ∀ {l : List ι} {d : Disk}, l.Nodup →
    (∀ i ∈ l, d (jobs i).input = d0 (jobs i).input ∧ d (jobs i).output = d0 (jobs i).output) →
    (∀ i ∈ l, inTurn jobs d l (jobs i).output = ((jobs i).alone d0).1 (jobs i).output) ∧
    ∀ q, (∀ i ∈ l, q ≠ (jobs i).output) → inTurn jobs d l q = d q
  | [], d, _, _ => ⟨fun i hi => (by cases hi), fun _ _ => rfl⟩
  | i :: l, d, hn, hd => by
    obtain ⟨hi, hn'⟩ := List.nodup_cons.mp hn
    obtain ⟨e1, e2⟩ := hd i List.mem_cons_self
    obtain ⟨-, hloc⟩ := pathSingle_local (env := (jobs i).env) (a := (jobs i).args) e1
    obtain ⟨g1, g2⟩ := inTurn_spec ha (d0 := d0) (l := l) (d := (pathSingle (jobs i).env (jobs i).args d (jobs i).input).1) hn' (fun k hk => by
      have hki : i ≠ k := fun h => hi (h ▸ hk)
      obtain ⟨a1, a2⟩ := ha i k hki
      obtain ⟨b1, b2⟩ := hd k (List.mem_cons_of_mem _ hk)
      exact ⟨((hloc _).1 (Ne.symm a1)).trans b1, ((hloc _).1 (Ne.symm a2)).trans b2⟩)
    have step : inTurn jobs d (i :: l) = inTurn jobs (pathSingle (jobs i).env (jobs i).args d (jobs i).input).1 l := rfl
    rw [step]
    refine ⟨fun k hk => ?_, fun q hq => ?_⟩
    · rcases List.mem_cons.mp hk with rfl | hk
      · rw [g2 _ (fun m hm => (ha k m (fun h => hi (h ▸ hm))).2)]
        exact (hloc _).2 e2
      · exact g1 k hk
    · rw [g2 q (fun m hm => hq m (List.mem_cons_of_mem _ hm))]
      exact (hloc q).1 (hq i List.mem_cons_self)

/-- **C112, as if in turn.** When all the runs have ended the files are as after the same runs one after the other, in whatever order. -/
theorem C112_in_turn {ι : Type} [DecidableEq ι] (jobs : ι → Job) (ha : Apart jobs) (disk : Disk) (sched : List ι) (t : Sys ι)
    (h : Exec jobs sched (.begin disk) t) (hend : ∀ i, ∃ e, t.at_ i = .ended e) (order : List ι) (ho : order.Nodup) (hall : ∀ i, i ∈ order) :
    t.disk = inTurn jobs disk order := by
  obtain ⟨g1, g2⟩ := inTurn_spec ha (d0 := disk) (l := order) (d := disk) ho (fun _ _ => ⟨rfl, rfl⟩)
  funext q
  by_cases hq : ∃ i, q = (jobs i).output
  · obtain ⟨i, rfl⟩ := hq
    obtain ⟨e, he⟩ := hend i
    rw [g1 i (hall i)]
    exact (C112_alone jobs ha disk sched t h i e he).2
  · have hq' : ∀ i, q ≠ (jobs i).output := fun i hi => hq ⟨i, hi⟩
    rw [g2 q (fun i _ => hq' i)]
    exact (exec_inv ha h).2.1 q hq'

/-- **C112, interrupted.** Stopped at any moment (the machine crashes, say), no run writing its own input either: the same runs done again, one after the other,
leave what they would have left without the first attempt. -/
theorem C112_interrupted {ι : Type} [DecidableEq ι] (jobs : ι → Job) (ha : Apart jobs) (hown : ∀ i, (jobs i).output ≠ (jobs i).input) (disk : Disk)
    (sched : List ι) (t : Sys ι) (h : Exec jobs sched (.begin disk) t) (order : List ι) (ho : order.Nodup) (hall : ∀ i, i ∈ order) :
    inTurn jobs t.disk order = inTurn jobs disk order := by
  obtain ⟨g1, g2⟩ := inTurn_spec ha (d0 := disk) (l := order) (d := disk) ho (fun _ _ => ⟨rfl, rfl⟩)
  obtain ⟨f1, f2⟩ := inTurn_spec ha (d0 := t.disk) (l := order) (d := t.disk) ho (fun _ _ => ⟨rfl, rfl⟩)
  obtain ⟨e1, e2, -⟩ := exec_inv ha h
  funext q
  by_cases hq : ∃ i, q = (jobs i).output
  · obtain ⟨i, rfl⟩ := hq
    rw [g1 i (hall i), f1 i (hall i)]
    have hin : t.disk (jobs i).input = disk (jobs i).input := e2 _ (fun k => by
      by_cases hk : k = i
      · subst hk; exact (hown k).symm
      · exact (ha k i hk).1.symm)
    have same : t.disk (jobs i).output = disk (jobs i).output → ((jobs i).alone t.disk).1 (jobs i).output = ((jobs i).alone disk).1 (jobs i).output :=
      ((pathSingle_local (env := (jobs i).env) (a := (jobs i).args) hin).2 _).2
    have made : ∀ b, (jobs i).Makes disk b → ((jobs i).alone t.disk).1 (jobs i).output = ((jobs i).alone disk).1 (jobs i).output := by
      intro b hb
      rw [hb _ hin, hb _ rfl]
      exact (if_pos rfl).trans (if_pos rfl).symm
    have hi := e1 i
    generalize t.at_ i = ph at hi
    cases ph with
    | start => exact same hi.2
    | head got => exact same hi.2.1
    | reading got => exact same hi.2.1
    | creating b => exact same hi.1
    | writing pos rest =>
      obtain ⟨b, k1, -⟩ := hi
      exact made b k1
    | ended e =>
      rcases pathSingle_cases (jobs i).env (jobs i).args disk (jobs i).input with ⟨_, k⟩ | ⟨-, c, hc, ⟨_, k⟩ | ⟨b, hb, -⟩⟩
      · exact same (hi.2.trans (congrFun k _))
      · exact same (hi.2.trans (congrFun k _))
      · exact made b (fun d hd => pathSingle_output (hd.trans hc) hb)
  · have hq' : ∀ i, q ≠ (jobs i).output := fun i hi => hq ⟨i, hi⟩
    rw [g2 q (fun i _ => hq' i), f2 q (fun i _ => hq' i)]
    exact e2 q hq'

/-! ### Runs that share an output -/

/-- Nothing has been written yet, nor is there anything to write. -/
def Phase.early : Phase → Prop
  | .start => True
  | .head _ => True
  | .reading _ => True
  | _ => False

theorem Job.Step.early {j : Job} {ph ph' : Phase} {d d' : Disk} (h : j.Step ph d ph' d') (he : ph.early) : d' = d := by
  cases h <;> first | rfl | exact he.elim

/-- A run can be brought to the point where it creates its output, while the others wait. -/
theorem drive {ι : Type} [DecidableEq ι] {jobs : ι → Job} {d0 : Disk} {i : ι} {b : Bytes} (hn : d0 (jobs i).output = none)
    (hb : (jobs i).alone d0 = (d0.write (jobs i).output b, .ok)) : ∀ (n : Nat) {sched : List ι} {s t : Sys ι}, Exec jobs sched s t → t.disk = d0 →
    (t.at_ i).early → (jobs i).Inv d0 d0 (t.at_ i) → (jobs i).rank d0 (t.at_ i) = n →
    ∃ sched' t', Exec jobs sched' s t' ∧ t'.disk = d0 ∧ t'.at_ i = .creating b ∧ ∀ k, k ≠ i → t'.at_ k = t.at_ k := by
  intro n
  induction n using Nat.strong_induction_on with
  | _ n ih =>
    intro sched s t hx hd he hinv hr
    obtain ⟨ph, d, hst⟩ := hinv.progress (fun e h => by rw [h] at he; exact he)
    have hdd := hst.early he
    subst hdd
    obtain ⟨hinv', hlt⟩ := hst.inv hinv
    have hx' := Exec.step hx (i := i) (ph := ph) (d := d) (by rw [hd]; exact hst)
    by_cases hp : ph.early
    · obtain ⟨sched', t', a1, a2, a3, a4⟩ := ih _ (hr ▸ hlt) hx' rfl (by simpa using hp) (by simpa using hinv') (by simp)
      exact ⟨sched', t', a1, a2, a3, fun k hk => by rw [a4 k hk]; exact if_neg hk⟩
    · refine ⟨_, _, hx', rfl, ?_, fun k hk => if_neg hk⟩
      have hw : d.write (jobs i).output b (jobs i).output = some b := if_pos rfl
      have goal : ph = .creating b := by
        cases ph with
        | start => exact absurd trivial hp
        | head g => exact absurd trivial hp
        | reading g => exact absurd trivial hp
        | creating b' =>
          have h2 := hinv'.2 d rfl
          rw [hb] at h2
          have := congrFun (congrArg Prod.fst h2) (jobs i).output
          dsimp only at this
          rw [hw, show d.write (jobs i).output b' (jobs i).output = some b' from if_pos rfl] at this
          rw [Option.some.inj this]
        | writing pos rest =>
          obtain ⟨b', -, -, -, h4⟩ := hinv'
          rw [hn] at h4
          cases h4
        | ended e =>
          have h2 := hinv'.2
          rw [hn, hb] at h2
          dsimp only at h2
          rw [hw] at h2
          cases h2
      simpa using goal

/-- **C112 [the runs must not share an output].** Two runs with the same output file, of which the second produces fewer bytes, not a beginning of what the first
produces.  They can both end well and leave a file that is neither the first's output nor the second's, but the second's followed by the end of the first's. -/
theorem C112_refuted_shared (j k : Job) (ho : k.output = j.output) (disk : Disk) (hn : disk j.output = none) (a b : Bytes)
    (ha : pathSingle j.env j.args disk j.input = (disk.write j.output a, .ok)) (hb : pathSingle k.env k.args disk k.input = (disk.write j.output b, .ok))
    (h0 : b ≠ []) (hl : b.length < a.length) (hp : ¬ b <+: a) :
    ∃ sched t, Exec (fun i : Bool => if i then k else j) sched (.begin disk) t ∧ (∀ i, t.at_ i = .ended .ok) ∧
      t.disk j.output = some (b ++ a.drop b.length) ∧ b ++ a.drop b.length ≠ a ∧ b ++ a.drop b.length ≠ b := by
  set jobs : Bool → Job := fun i => if i then k else j with hjobs
  have jf : jobs false = j := rfl
  have jt : jobs true = k := rfl
  have a0 : a ≠ [] := by rintro rfl; simp at hl
  obtain ⟨s1, t1, x1, d1, p1, q1⟩ := drive (jobs := jobs) (i := false) (d0 := disk) (b := a) hn ha _ (Exec.nil (Sys.begin disk)) rfl trivial ⟨rfl, rfl⟩ rfl
  have q1' : t1.at_ true = .start := q1 true (by decide)
  obtain ⟨s2, t2, x2, d2, p2, q2⟩ := drive (jobs := jobs) (i := true) (d0 := disk) (b := b) (by rw [jt, ho]; exact hn) (by rw [jt, ho]; exact hb) _ x1 d1
    (by rw [q1']; trivial) (by rw [q1']; exact ⟨rfl, rfl⟩) rfl
  have p2' : t2.at_ false = .creating a := (q2 false (by decide)).trans p1
  have x3 := Exec.step x2 (i := false) (ph := .writing 0 a) (d := t2.disk.write j.output []) (by rw [p2']; exact .create)
  have x4 := Exec.step x3 (i := true) (ph := .writing 0 b) (d := (t2.disk.write j.output []).write j.output []) (by
    show k.Step (t2.at_ true) _ _ _
    rw [p2, ← ho]; exact .create)
  have x5 := Exec.step x4 (i := false) (ph := .writing a.length []) (d := ((t2.disk.write j.output []).write j.output []).write j.output a) (by
    have := Job.Step.write (j := j) (d := (t2.disk.write j.output []).write j.output []) (pos := 0) (n := a.length) (c := []) (rest := a) (if_pos rfl) a0
      (List.length_pos_iff.mpr a0)
    show j.Step (.writing 0 a) _ _ _
    simpa [patch] using this)
  have x6 := Exec.step x5 (i := true) (ph := .writing b.length [])
    (d := (((t2.disk.write j.output []).write j.output []).write j.output a).write j.output (b ++ a.drop b.length)) (by
    have := Job.Step.write (j := k) (d := ((t2.disk.write j.output []).write j.output []).write j.output a) (pos := 0) (n := b.length) (c := a) (rest := b)
      (by rw [ho]; exact if_pos rfl) h0 (List.length_pos_iff.mpr h0)
    rw [ho] at this
    show k.Step (.writing 0 b) _ _ _
    simpa [patch] using this)
  have x7 := Exec.step x6 (i := false) (ph := .ended .ok)
    (d := (((t2.disk.write j.output []).write j.output []).write j.output a).write j.output (b ++ a.drop b.length)) (by
    exact Job.Step.close (j := j) (pos := a.length))
  have x8 := Exec.step x7 (i := true) (ph := .ended .ok)
    (d := (((t2.disk.write j.output []).write j.output []).write j.output a).write j.output (b ++ a.drop b.length)) (by
    exact Job.Step.close (j := k) (pos := b.length))
  refine ⟨_, _, x8, fun i => by cases i <;> simp, if_pos rfl, fun h => hp ⟨_, h⟩, fun h => ?_⟩
  have := congrArg List.length h
  rw [List.length_append, List.length_drop] at this
  omega

/-! ### Examples -/

/-- A directory with three files of samples, two of which differ in the extension only. -/
def sharedDisk : Disk := fun q =>
  if q = "x.wbro".toList then (WavBrro.toFileWithData [F64.lit 5, FP.nan, F64.lit 5, F64.lit (-7)]).toOption
  else if q = "x.w".toList then (WavBrro.toFileWithData [F64.lit 9, F64.lit 9]).toOption
  else if q = "y.wbro".toList then (WavBrro.toFileWithData [F64.lit 2]).toOption else none

def jobX : Job := ⟨demoEnv, demoArgs, "x.wbro".toList⟩
def jobW : Job := ⟨demoEnv, demoArgs, "x.w".toList⟩
def jobY : Job := ⟨demoEnv, demoArgs, "y.wbro".toList⟩

example : Apart (fun i : Bool => if i then jobY else jobX) ∧ ∀ i : Bool, (if i then jobY else jobX).output ≠ (if i then jobY else jobX).input := by
  unfold Apart; decide +kernel

/-- `x.wbro` and `y.wbro` at the same time: both runs end well, whatever the schedule. -/
example : (pathSingle demoEnv demoArgs sharedDisk "x.wbro".toList).2 = .ok ∧ ((pathSingle demoEnv demoArgs sharedDisk "x.wbro".toList).1 "x.bro".toList).isSome = true ∧
    (pathSingle demoEnv demoArgs sharedDisk "y.wbro".toList).2 = .ok ∧ ((pathSingle demoEnv demoArgs sharedDisk "y.wbro".toList).1 "y.bro".toList).isSome = true := by
  decide +kernel

/-- `x.wbro` and `x.w` at the same time: both write `x.bro`. -/
def sharedOut (s : List Char) : Bytes := ((pathSingle demoEnv demoArgs sharedDisk s).1 "x.bro".toList).getD []

theorem shared_writes : (pathSingle demoEnv demoArgs sharedDisk "x.wbro".toList).2 = .ok ∧ (pathSingle demoEnv demoArgs sharedDisk "x.w".toList).2 = .ok ∧
    jobX.output = "x.bro".toList ∧ jobW.output = "x.bro".toList ∧ sharedDisk "x.bro".toList = none ∧
    sharedOut "x.w".toList ≠ [] ∧ (sharedOut "x.w".toList).length < (sharedOut "x.wbro".toList).length ∧
    ¬ sharedOut "x.w".toList <+: sharedOut "x.wbro".toList := by decide +kernel

theorem write_same (d : Disk) (o : List Char) (b : Bytes) : d.write o b o = some b := if_pos rfl

/-- What a run writes is what is in its output afterwards. -/
theorem alone_write {j : Job} {d : Disk} (hn : d j.output = none) (hs : (((j.alone d).1 j.output).getD []) ≠ []) :
    j.alone d = (d.write j.output (((j.alone d).1 j.output).getD []), .ok) := by
  unfold Job.alone at hs ⊢
  rcases pathSingle_cases j.env j.args d j.input with ⟨_, k⟩ | ⟨ko, c, _, ⟨_, k⟩ | ⟨b, _, k⟩⟩
  · rw [k, hn] at hs; exact absurd rfl hs
  · rw [k, hn] at hs; exact absurd rfl hs
  · have : (pathSingle j.env j.args d j.input).1 j.output = some b := by rw [k]; exact if_pos rfl
    rw [this]
    exact Prod.ext k ko

/-- **C112 [the runs must not share an output], a case.** `x.wbro` and `x.w` compressed at the same time: both runs can end well and leave in `x.bro` neither
what is in it when `x.wbro` is compressed alone nor what is in it when `x.w` is. -/
theorem C112_refuted_example : ∃ sched t, Exec (fun i : Bool => if i then jobW else jobX) sched (.begin sharedDisk) t ∧ (∀ i, t.at_ i = .ended .ok) ∧
    t.disk "x.bro".toList ≠ (pathSingle demoEnv demoArgs sharedDisk "x.wbro".toList).1 "x.bro".toList ∧
    t.disk "x.bro".toList ≠ (pathSingle demoEnv demoArgs sharedDisk "x.w".toList).1 "x.bro".toList := by
  obtain ⟨-, -, o1, o2, hn, h0, hl, hp⟩ := shared_writes
  have hs1 : sharedOut "x.wbro".toList ≠ [] := by intro h; rw [h] at hl; simp at hl
  have w1 := alone_write (j := jobX) (d := sharedDisk) (by rw [o1]; exact hn) (by rw [o1]; exact hs1)
  have w2 := alone_write (j := jobW) (d := sharedDisk) (by rw [o2]; exact hn) (by rw [o2]; exact h0)
  rw [o1] at w1
  rw [o2] at w2
  obtain ⟨sched, t, hx, he, hd, n1, n2⟩ := C112_refuted_shared jobX jobW (o2.trans o1.symm) sharedDisk (by rw [o1]; exact hn)
    (sharedOut "x.wbro".toList) (sharedOut "x.w".toList) (by rw [o1]; exact w1) (by rw [o1]; exact w2) h0 hl hp
  rw [o1] at hd
  have r1 : (pathSingle demoEnv demoArgs sharedDisk "x.wbro".toList).1 "x.bro".toList = some (sharedOut "x.wbro".toList) :=
    by
    have := congrFun (congrArg Prod.fst w1) "x.bro".toList
    dsimp only at this
    rw [write_same] at this
    exact this
  have r2 : (pathSingle demoEnv demoArgs sharedDisk "x.w".toList).1 "x.bro".toList = some (sharedOut "x.w".toList) :=
    by
    have := congrFun (congrArg Prod.fst w2) "x.bro".toList
    dsimp only at this
    rw [write_same] at this
    exact this
  refine ⟨sched, t, hx, he, ?_, ?_⟩
  · rw [hd, r1]; exact fun h => n1 (Option.some.inj h)
  · rw [hd, r2]; exact fun h => n2 (Option.some.inj h)

end Atsc
