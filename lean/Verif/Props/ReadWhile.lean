import Verif.Props.Concurrent
import Verif.Props.Crash
/- C113: uncompressing a file while it is being compressed. -/
namespace Atsc

/-- The run has nothing more to read. -/
def Phase.late : Phase → Prop
  | .writing _ _ => True
  | .ended _ => True
  | _ => False

theorem Job.Step.late {j : Job} {ph ph' : Phase} {d d' : Disk} (h : j.Step ph d ph' d') (hl : ph.late) : ph'.late := by
  cases h <;> first | exact hl.elim | trivial

theorem Job.Inv.late_congr {j : Job} {d0 d d' : Disk} {ph : Phase} (h : j.Inv d0 d ph) (hl : ph.late) (ho : d' j.output = d j.output) : j.Inv d0 d' ph := by
  cases ph with
  | writing p r => unfold Job.Inv at h ⊢; rw [ho]; exact h
  | ended e => unfold Job.Inv at h ⊢; rw [ho]; exact h
  | start => exact hl.elim
  | head g => exact hl.elim
  | reading g => exact hl.elim
  | creating g => exact hl.elim

theorem Job.Inv.not_late {j : Job} {d0 d : Disk} {ph : Phase} (h : j.Inv d0 d ph) (hl : ¬ ph.late) : d j.output = d0 j.output := by
  cases ph with
  | writing p r => exact absurd trivial hl
  | ended e => exact absurd trivial hl
  | start => exact h.2
  | head g => exact h.2.1
  | reading g => exact h.2.1
  | creating g => exact h.1

theorem Job.Makes.unique {j : Job} {d0 : Disk} {b b' : Bytes} (h : j.Makes d0 b) (h' : j.Makes d0 b') : b = b' := by
  have h1 := h d0 rfl
  rw [h' d0 rfl] at h1
  have := congrFun (congrArg Prod.fst h1) j.output
  dsimp only at this
  rw [write_same, write_same] at this
  exact (Option.some.inj this).symm

theorem Job.Inv.is_late {j : Job} {d0 d : Disk} {ph : Phase} {b : Bytes} (hb : j.Makes d0 b) (h : j.Inv d0 d ph) (hl : ph.late) :
    ∃ pos, d j.output = some (b.take pos) := by
  cases ph with
  | writing p r =>
    obtain ⟨b', h1, -, -, h4⟩ := h
    rw [hb.unique h1]
    exact ⟨p, h4⟩
  | ended e =>
    have h2 := h.2
    rw [hb d0 rfl] at h2
    dsimp only at h2
    rw [write_same] at h2
    exact ⟨b.length, by rw [List.take_length]; exact h2⟩
  | start => exact hl.elim
  | head g => exact hl.elim
  | reading g => exact hl.elim
  | creating g => exact hl.elim

/-- The reading run has not read anything. -/
def Phase.fresh : Phase → Prop
  | .start => True
  | .ended .ok => False
  | .ended _ => True
  | _ => False

/-- What is known of the reading run: the file it reads will be `b`, its own output `out`. -/
def Job.Reads (r : Job) (d0 d : Disk) (b out : Bytes) : Phase → Prop
  | .start => d r.output = d0 r.output
  | .head got => d r.output = d0 r.output ∧ got = b.take got.length ∧ got.length ≤ 12
  | .reading got => d r.output = d0 r.output ∧ got = b.take got.length
  | .creating o => d r.output = d0 r.output ∧ o = out
  | .writing pos rest => pos ≤ out.length ∧ rest = out.drop pos ∧ d r.output = some (out.take pos)
  | .ended .ok => d r.output = some out
  | .ended _ => d r.output = d0 r.output

theorem Job.Reads.congr {r : Job} {d0 d d' : Disk} {b out : Bytes} {ph : Phase} (h : r.Reads d0 d b out ph) (ho : d' r.output = d r.output) : r.Reads d0 d' b out ph := by
  cases ph with
  | ended e => cases e <;> (unfold Job.Reads at h ⊢; rw [ho]; exact h)
  | _ => unfold Job.Reads at h ⊢; rw [ho]; exact h

theorem Job.afterHead_reads {r : Job} {d0 d : Disk} {b out : Bytes} (hu : r.args.uncompress = true) (ho : Output r.env r.args b out) {k : Nat}
    (hd : d r.output = d0 r.output) (hk : k ≤ 12) : r.Reads d0 d b out (r.afterHead (b.take k)) := by
  have hb4 : b.take 4 = brro := by
    cases ho with
    | uncompress _ _ h _ _ => exact h
    | csv h _ _ _ => rw [hu] at h; cases h
    | wbro h _ _ _ => rw [hu] at h; cases h
  unfold Job.afterHead
  by_cases hl : (b.take k).length < 12
  · rw [if_pos hl]; exact hd
  · rw [if_neg hl, if_pos hu]
    have hk4 : 4 ≤ k := by rw [List.length_take] at hl; omega
    rw [List.take_take, Nat.min_eq_left hk4, if_pos hb4]
    exact ⟨hd, rfl⟩

theorem Job.afterRead_reads {r : Job} {d0 d : Disk} {b out : Bytes} (hu : r.args.uncompress = true) (ho : Output r.env r.args b out) (k : Nat)
    (hd : d r.output = d0 r.output) : r.Reads d0 d b out (r.afterRead (b.take k)) := by
  unfold Job.afterRead
  rw [if_pos hu]
  cases hc : decompressData r.env.E (b.take k) with
  | error e => exact hd
  | ok x =>
    cases ho with
    | csv h _ _ _ => rw [hu] at h; cases h
    | wbro h _ _ _ => rw [hu] at h; cases h
    | uncompress _ _ _ h4 h5 =>
      obtain rfl := C71_any_file _ _ _ _ _ h4 hc
      dsimp only
      rw [h5]
      exact ⟨hd, rfl⟩

/-- One step of the reading run while the file it reads is a beginning of `b`. -/
theorem Job.Step.reads {r : Job} {ph ph' : Phase} {d0 d d' : Disk} {b out : Bytes} (h : r.Step ph d ph' d') (hu : r.args.uncompress = true)
    (ho : Output r.env r.args b out) (hin : d r.input = none ∨ ∃ pos, d r.input = some (b.take pos)) (hi : r.Reads d0 d b out ph) : r.Reads d0 d' b out ph' := by
  have hfrom : r.from = 0 := by unfold Job.from; rw [hu]; simp
  have hfirst : r.first = .head [] := by unfold Job.first; rw [hu]; simp
  have hcc : ∀ {c : Bytes}, d r.input = some c → ∃ pos, c = b.take pos := by
    intro c hc
    rcases hin with h | ⟨pos, h⟩
    · rw [h] at hc; cases hc
    · rw [h] at hc; exact ⟨pos, (Option.some.inj hc).symm⟩
  have pre : ∀ {c got : Bytes} {n : Nat}, d r.input = some c → got = b.take got.length → got.length ≤ c.length →
      got ++ (c.drop got.length).take n = b.take (got ++ (c.drop got.length).take n).length := by
    intro c got n hc hg hle
    obtain ⟨pos, rfl⟩ := hcc hc
    have h1 : got = (b.take pos).take got.length := by
      rw [List.take_take, Nat.min_eq_left (by rw [List.length_take] at hle; omega)]; exact hg
    have h2 : got ++ ((b.take pos).drop got.length).take n = (b.take pos).take (got ++ ((b.take pos).drop got.length).take n).length := by
      have e := take_more (n := n) hle
      rw [← h1] at e
      rw [List.length_append]
      exact e
    refine h2.trans ?_
    rw [List.take_take, Nat.min_eq_left]
    have h3 : (got ++ ((b.take pos).drop got.length).take n).length ≤ (b.take pos).length := by
      rw [List.length_append, List.length_take, List.length_drop]; omega
    exact h3.trans (by rw [List.length_take]; omega)
  cases h with
  | missing hc => exact hi
  | found hc => rw [hfirst]; exact ⟨hi, by simp, by simp⟩
  | @headMore _ c got n hc hl hn h12 =>
    obtain ⟨h1, h2, h3⟩ := hi
    refine ⟨h1, pre hc h2 (le_of_lt hl), ?_⟩
    rw [List.length_append, List.length_take]; omega
  | @headDone _ c got hc hd =>
    obtain ⟨h1, h2, h3⟩ := hi
    rw [h2]
    exact Job.afterHead_reads hu ho h1 h3
  | @readMore _ c got n hc hl hn =>
    obtain ⟨h1, h2⟩ := hi
    rw [hfrom, Nat.zero_add] at hl ⊢
    exact ⟨h1, pre hc h2 (le_of_lt hl)⟩
  | @readDone _ c got hc hl =>
    obtain ⟨h1, h2⟩ := hi
    rw [h2]
    exact Job.afterRead_reads hu ho _ h1
  | @create _ o =>
    obtain ⟨h1, rfl⟩ := hi
    exact ⟨Nat.zero_le _, rfl, if_pos rfl⟩
  | @write _ pos n c rest hc hr hn =>
    obtain ⟨h2, rfl, h4⟩ := hi
    rw [h4] at hc
    obtain rfl := Option.some.inj hc
    have hlen : ((out.drop pos).take n).length = min n (out.length - pos) := by rw [List.length_take, List.length_drop]
    refine ⟨by rw [hlen]; omega, ?_, ?_⟩
    · rw [hlen, List.drop_drop]
      by_cases hm : n ≤ out.length - pos
      · rw [Nat.min_eq_left hm]
      · rw [List.drop_eq_nil_of_le (by omega), List.drop_eq_nil_of_le (by omega)]
    · rw [patch_next h2]; exact if_pos rfl
  | @close _ pos =>
    obtain ⟨h2, h3, h4⟩ := hi
    have hle : out.length ≤ pos := List.drop_eq_nil_iff.mp h3.symm
    show d r.output = some out
    rw [h4, List.take_of_length_le hle]

theorem fresh_step {r : Job} {ph ph' : Phase} {d d' : Disk} (h : r.Step ph d ph' d') (hf : ph.fresh) (hn : d r.input = none) : ph'.fresh ∧ d' = d := by
  cases h with
  | missing _ => exact ⟨trivial, rfl⟩
  | found hc => rw [hn] at hc; cases hc
  | _ => exact hf.elim

theorem rw_inv {w r : Job} {d0 : Disk} {b out : Bytes} (hw : w.Makes d0 b) (hn : d0 w.output = none) (hr : r.input = w.output) (hne : r.output ≠ w.output)
    (hu : r.args.uncompress = true) (ho : Output r.env r.args b out) {sched : List Bool} {t : Sys Bool}
    (h : Exec (fun i : Bool => if i then r else w) sched (.begin d0) t) :
    w.Inv d0 t.disk (t.at_ false) ∧ ((t.at_ false).late ∨ (t.at_ true).fresh) ∧ r.Reads d0 t.disk b out (t.at_ true) ∧
    ∀ q, q ≠ w.output → q ≠ r.output → t.disk q = d0 q := by
  generalize hs : Sys.begin d0 = s at h
  induction h with
  | nil s => subst hs; exact ⟨⟨rfl, rfl⟩, Or.inr trivial, rfl, fun _ _ _ => rfl⟩
  | @step sched s t i ph d he hst ih =>
    obtain ⟨h1, h2, h3, h4⟩ := ih hs
    cases i with
    | false =>
      have hst' : w.Step (t.at_ false) t.disk ph d := hst
      refine ⟨(hst'.inv h1).1, ?_, h3.congr (hst'.other hne), fun q q1 q2 => (hst'.other q1).trans (h4 q q1 q2)⟩
      rcases h2 with h2 | h2
      · exact Or.inl (hst'.late h2)
      · exact Or.inr h2
    | true =>
      have hst' : r.Step (t.at_ true) t.disk ph d := hst
      have hdo : d w.output = t.disk w.output := hst'.other (Ne.symm hne)
      by_cases hl : (t.at_ false).late
      · have hin : ∃ pos, t.disk r.input = some (b.take pos) := by rw [hr]; exact h1.is_late hw hl
        exact ⟨h1.late_congr hl hdo, Or.inl hl, hst'.reads hu ho (Or.inr hin) h3, fun q q1 q2 => (hst'.other q2).trans (h4 q q1 q2)⟩
      · have hin : t.disk r.input = none := by rw [hr, h1.not_late hl]; exact hn
        obtain ⟨f1, f2⟩ := fresh_step hst' (h2.resolve_left hl) hin
        have f3 := hst'.reads hu ho (Or.inl hin) h3
        subst f2
        exact ⟨h1, Or.inr f1, f3, fun q q1 q2 => h4 q q1 q2⟩

/-! ### The theorems -/

/-- **C113.** A run `w` that compresses its input (of content `c`, to `b`) and a run `r -u` on the output of `w`, at the same time, their file operations coming in any
order; the output of `w` did not exist before.  `out` is what `r` makes of the finished file.  At every moment:
the file being compressed does not exist or is a beginning of `b`, and is all of it once `w` has ended, which it does well;
the output of `r` is as it was or a beginning of `out`; once `r` has ended well it is `out`, once it has ended with an error it is as it was;
and all other files are as they were. -/
theorem C113_while (w r : Job) (disk : Disk) (c b out : Bytes) (hc : disk w.input = some c) (hw : Output w.env w.args c b) (hn : disk w.output = none)
    (hr : r.input = w.output) (hne : r.output ≠ w.output) (hu : r.args.uncompress = true) (ho : Output r.env r.args b out)
    (sched : List Bool) (t : Sys Bool) (h : Exec (fun i : Bool => if i then r else w) sched (.begin disk) t) :
    (t.disk w.output = none ∨ ∃ pos, t.disk w.output = some (b.take pos)) ∧
    (∀ e, t.at_ false = .ended e → e = .ok ∧ t.disk w.output = some b) ∧
    (t.disk r.output = disk r.output ∨ ∃ pos, t.disk r.output = some (out.take pos)) ∧
    (∀ e, t.at_ true = .ended e → (e = .ok ∧ t.disk r.output = some out) ∨ (e ≠ .ok ∧ t.disk r.output = disk r.output)) ∧
    ∀ q, q ≠ w.output → q ≠ r.output → t.disk q = disk q := by
  have hm : w.Makes disk b := fun d hd => pathSingle_output (hd.trans hc) hw
  obtain ⟨h1, h2, h3, h4⟩ := rw_inv hm hn hr hne hu ho h
  refine ⟨?_, fun e he => ?_, ?_, fun e he => ?_, h4⟩
  · by_cases hl : (t.at_ false).late
    · exact Or.inr (h1.is_late hm hl)
    · exact Or.inl ((h1.not_late hl).trans hn)
  · rw [he] at h1
    obtain ⟨k1, k2⟩ := h1
    rw [hm disk rfl] at k1 k2
    exact ⟨k1.symm, k2.trans (write_same _ _ _)⟩
  · generalize t.at_ true = ph at h3
    cases ph with
    | start => exact Or.inl h3
    | head g => exact Or.inl h3.1
    | reading g => exact Or.inl h3.1
    | creating o => exact Or.inl h3.1
    | writing pos rest => exact Or.inr ⟨pos, h3.2.2⟩
    | ended e =>
      cases e with
      | ok => exact Or.inr ⟨out.length, by rw [List.take_length]; exact h3⟩
      | err => exact Or.inl h3
      | panicked => exact Or.inl h3
  · rw [he] at h3
    cases e with
    | ok => exact Or.inl ⟨rfl, h3⟩
    | err => exact Or.inr ⟨by simp, h3⟩
    | panicked => exact Or.inr ⟨by simp, h3⟩

/-- **C113, what comes out.** When the input of `w` is a WBRO file of samples (not more than `2^28`, at least one finite) the finished file does uncompress, to
as many samples as there were finite ones: so a run `-u` at the same time leaves exactly these, or nothing. -/
theorem C113_samples (w r : Job) (hE : w.env.E.Lawful) (hsame : r.env = w.env) (ha : 8 ∣ w.env.addr) (hv : w.args.comp.Valid) (hwu : w.args.uncompress = false)
    (hwc : w.args.csv = false) (hu : r.args.uncompress = true) (disk : Disk) (c : Bytes) (data : List F64) (hc : disk w.input = some c)
    (hd : WavBrro.fromFile w.env.addr c = .ok (.samples data)) (hl : data.length ≤ 2 ^ 28) (hp : FewEnough w.env.p data) (hx : ∃ x ∈ data, x.isFinite = true)
    (hn : disk w.output = none) (hr : r.input = w.output) (hne : r.output ≠ w.output) :
    ∃ b, compressData w.env.E w.env.p data w.args.comp = .ok b ∧ (b.length < 2 ^ 64 → ∃ back out, decompressData w.env.E b = .ok back ∧
      back.length = (finiteSamples data).length ∧ WavBrro.fromFile w.env.addr out = .ok (.samples back) ∧
      ∀ sched t, Exec (fun i : Bool => if i then r else w) sched (.begin disk) t →
        (t.at_ true = .ended .ok → t.disk r.output = some out) ∧ (∀ e, t.at_ true = .ended e → e ≠ .ok → t.disk r.output = disk r.output)) := by
  obtain ⟨x, hx1, hx2⟩ := hx
  obtain ⟨b, c1, c2, -⟩ := C53_accepted w.env.E hE w.env.p _ w.args.comp hv hp x hx1 hx2
  obtain ⟨b', c3, c4⟩ := C54_end_to_end w.env.E hE w.env.p _ w.args.comp hv hp
  rw [c1] at c3
  obtain rfl := Except.ok.inj c3
  have hbro : 12 ≤ b.length ∧ b.take 4 = [66, 82, 82, 79] := by
    unfold broRead at c2
    by_cases hl : b.length < 12
    · rw [if_pos hl] at c2; cases c2
    · rw [if_neg hl] at c2
      by_cases h4 : b.take 4 = brro
      · exact ⟨by omega, h4⟩
      · rw [if_neg h4] at c2; cases c2
  refine ⟨b, c1, fun hb => ?_⟩
  obtain ⟨back, e1, e2⟩ := c4 hb
  have hle2 : (finiteSamples data).length ≤ data.length := List.length_filter_le _ _
  obtain ⟨out, g1, g2⟩ := C39_round_trip back (by omega) w.env.addr ha
  refine ⟨back, out, e1, e2, g2, fun sched t h => ?_⟩
  obtain ⟨-, -, -, k, -⟩ := C113_while w r disk c b out hc (.wbro hwu hwc hd c1) hn hr hne hu (.uncompress hu hbro.1 hbro.2 (by rw [hsame]; exact e1) g1) sched t h
  refine ⟨fun he => ?_, fun e he hne => ?_⟩
  · rcases k _ he with ⟨-, k⟩ | ⟨k, -⟩
    · exact k
    · exact absurd rfl k
  · rcases k _ he with ⟨k, -⟩ | ⟨-, k⟩
    · exact absurd k hne
    · exact k

/-! ### When there was an older file -/

theorem Job.Step.not_writing {j : Job} {ph ph' : Phase} {d d' : Disk} (h : j.Step ph d ph' d') (he : ph.early) (pos : Nat) (rest : Bytes) : ph' ≠ .writing pos rest := by
  have comp : ∀ x, j.compressed x ≠ .writing pos rest := by
    intro x
    unfold Job.compressed
    split <;> simp
  cases h with
  | missing _ => simp
  | found _ => unfold Job.first; split_ifs <;> simp
  | headMore _ _ _ _ => simp
  | headDone _ _ => unfold Job.afterHead; split_ifs <;> simp
  | readMore _ _ _ => simp
  | readDone _ _ =>
    unfold Job.afterRead
    split_ifs
    · split
      · simp
      · split <;> simp
    · split
      · simp
      · simp
      · exact comp _
    · split
      · simp
      · exact comp _
  | create => exact he.elim
  | write _ _ _ => exact he.elim
  | close => exact he.elim

/-- A run can be brought to the point where it creates its output, while the others wait; the output may exist. -/
theorem drive_over {ι : Type} [DecidableEq ι] {jobs : ι → Job} {d0 : Disk} {i : ι} {b : Bytes} (hn : d0 (jobs i).output ≠ some b)
    (hb : (jobs i).alone d0 = (d0.write (jobs i).output b, .ok)) : ∀ (n : Nat) {sched : List ι} {s t : Sys ι}, Exec jobs sched s t → t.disk = d0 →
    (t.at_ i).early → (jobs i).Inv d0 d0 (t.at_ i) → (jobs i).rank d0 (t.at_ i) = n →
    ∃ sched' t', Exec jobs sched' s t' ∧ t'.disk = d0 ∧ t'.at_ i = .creating b ∧ ∀ k, k ≠ i → t'.at_ k = t.at_ k := by
  intro n
  induction n using Nat.strong_induction_on with
  | _ n ih =>
    intro sched s t hx hd he hinv hr
    obtain ⟨ph, d, hst⟩ := hinv.progress (fun e h => by rw [h] at he; exact he)
    have hdd := hst.early he
    subst hdd
    obtain ⟨hinv', hlt⟩ := hst.inv hinv
    have hx' := Exec.step hx (i := i) (ph := ph) (d := d) (by rw [hd]; exact hst)
    by_cases hp : ph.early
    · obtain ⟨sched', t', a1, a2, a3, a4⟩ := ih _ (hr ▸ hlt) hx' rfl (by simpa using hp) (by simpa using hinv') (by simp)
      exact ⟨sched', t', a1, a2, a3, fun k hk => by rw [a4 k hk]; exact if_neg hk⟩
    · refine ⟨_, _, hx', rfl, ?_, fun k hk => if_neg hk⟩
      have hw : d.write (jobs i).output b (jobs i).output = some b := if_pos rfl
      have goal : ph = .creating b := by
        cases ph with
        | start => exact absurd trivial hp
        | head g => exact absurd trivial hp
        | reading g => exact absurd trivial hp
        | creating b' =>
          have h2 := hinv'.2 d rfl
          rw [hb] at h2
          have := congrFun (congrArg Prod.fst h2) (jobs i).output
          dsimp only at this
          rw [hw, show d.write (jobs i).output b' (jobs i).output = some b' from if_pos rfl] at this
          rw [Option.some.inj this]
        | writing pos rest => exact absurd rfl (hst.not_writing he pos rest)
        | ended e =>
          have h2 := hinv'.2
          rw [hb] at h2
          dsimp only at h2
          rw [hw] at h2
          exact absurd h2 hn
      simpa using goal

/-- **C113 [the compressed file must be new].** If there is an older compressed file, the run `-u` may read its first `k` bytes, and what follows from the new one,
and both runs end well: the samples written are those of the mixture. -/
theorem C113_refuted_old (w r : Job) (disk : Disk) (c b old : Bytes) (k : Nat) (hc : disk w.input = some c) (hw : Output w.env w.args c b)
    (hold : disk w.output = some old) (hr : r.input = w.output) (hne : r.output ≠ w.output) (hu : r.args.uncompress = true)
    (h12 : 12 ≤ old.length) (h4 : old.take 4 = [66, 82, 82, 79]) (hk0 : 0 < k) (hk : k ≤ old.length) (hkb : k < b.length) (hob : old ≠ b)
    (x : List F64) (out : Bytes) (hx : decompressData r.env.E (old.take k ++ b.drop k) = .ok x) (ho : WavBrro.toFileWithData x = .ok out) (hout : out ≠ []) :
    ∃ sched t, Exec (fun i : Bool => if i then r else w) sched (.begin disk) t ∧ (∀ i, t.at_ i = .ended .ok) ∧ t.disk w.output = some b ∧
      t.disk r.output = some out := by
  have hfrom : r.from = 0 := by unfold Job.from; rw [hu]; simp
  have hfirst : r.first = .head [] := by unfold Job.first; rw [hu]; simp
  set jobs : Bool → Job := fun i => if i then r else w with hjobs
  have hro : disk r.input = some old := by rw [hr]; exact hold
  have hb0 : b ≠ [] := by rintro rfl; simp at hkb
  -- the run `-u` reads `k` bytes
  have y1 := Exec.step (Exec.nil (jobs := jobs) (Sys.begin disk)) (i := true) (ph := .head []) (d := disk) (by
    show r.Step .start disk _ disk
    rw [← hfirst]; exact .found hro)
  have y2 := Exec.step y1 (i := true) (ph := .head (old.take 12)) (d := disk) (by
    show r.Step (.head []) disk _ disk
    have := Job.Step.headMore (j := r) (d := disk) (c := old) (got := []) (n := 12) hro (by simp; omega) (by omega) (by simp)
    simpa using this)
  have y3 := Exec.step y2 (i := true) (ph := .reading []) (d := disk) (by
    show r.Step (.head (old.take 12)) disk _ disk
    have := Job.Step.headDone (j := r) (d := disk) (c := old) (got := old.take 12) hro (Or.inl (by rw [List.length_take]; omega))
    have e : r.afterHead (old.take 12) = .reading [] := by
      unfold Job.afterHead
      rw [if_neg (by rw [List.length_take]; omega), if_pos hu, List.take_take, if_pos]
      exact h4
    rw [e] at this
    exact this)
  have y4 := Exec.step y3 (i := true) (ph := .reading (old.take k)) (d := disk) (by
    show r.Step (.reading []) disk _ disk
    have := Job.Step.readMore (j := r) (d := disk) (c := old) (got := []) (n := k) hro (by rw [hfrom]; simp; omega) hk0
    rw [hfrom] at this
    simpa using this)
  -- the other run compresses
  obtain ⟨s5, t5, x5, d5, p5, q5⟩ := drive_over (jobs := jobs) (i := false) (d0 := disk) (b := b)
    (by show disk w.output ≠ some b; rw [hold]; exact fun h => hob (Option.some.inj h)) (pathSingle_output hc hw) _ y4 rfl trivial ⟨rfl, rfl⟩ rfl
  have q5' : t5.at_ true = .reading (old.take k) := q5 true (by decide)
  have x6 := Exec.step x5 (i := false) (ph := .writing 0 b) (d := disk.write w.output []) (by rw [p5, d5]; exact .create)
  have x7 := Exec.step x6 (i := false) (ph := .writing b.length []) (d := (disk.write w.output []).write w.output b) (by
    show w.Step (.writing 0 b) _ _ _
    have := Job.Step.write (j := w) (d := disk.write w.output []) (pos := 0) (n := b.length) (c := []) (rest := b) (if_pos rfl) hb0 (List.length_pos_iff.mpr hb0)
    simpa [patch] using this)
  have x8 := Exec.step x7 (i := false) (ph := .ended .ok) (d := (disk.write w.output []).write w.output b) (by
    exact Job.Step.close (j := w) (pos := b.length))
  -- the run `-u` goes on
  have hd8 : ((disk.write w.output []).write w.output b) r.input = some b := by rw [hr]; exact if_pos rfl
  have hlk : (old.take k).length = k := by rw [List.length_take]; omega
  have x9 := Exec.step x8 (i := true) (ph := .reading (old.take k ++ b.drop k)) (d := (disk.write w.output []).write w.output b) (by
    show r.Step (t5.at_ true) _ _ _
    rw [q5']
    have := Job.Step.readMore (j := r) (d := (disk.write w.output []).write w.output b) (c := b) (got := old.take k) (n := b.length) hd8
      (by rw [hfrom, hlk]; omega) (by omega)
    rw [hfrom, hlk, Nat.zero_add, List.take_of_length_le (l := b.drop k) (by rw [List.length_drop]; omega)] at this
    exact this)
  have x10 := Exec.step x9 (i := true) (ph := .creating out) (d := (disk.write w.output []).write w.output b) (by
    show r.Step (.reading (old.take k ++ b.drop k)) _ _ _
    have := Job.Step.readDone (j := r) (d := (disk.write w.output []).write w.output b) (c := b) (got := old.take k ++ b.drop k) hd8
      (by rw [hfrom, List.length_append, hlk, List.length_drop]; omega)
    have e : r.afterRead (old.take k ++ b.drop k) = .creating out := by
      unfold Job.afterRead
      rw [if_pos hu, hx]
      dsimp only
      rw [ho]
    rw [e] at this
    exact this)
  have x11 := Exec.step x10 (i := true) (ph := .writing 0 out) (d := ((disk.write w.output []).write w.output b).write r.output []) (by
    show r.Step (.creating out) _ _ _
    exact .create)
  have x12 := Exec.step x11 (i := true) (ph := .writing out.length []) (d := (((disk.write w.output []).write w.output b).write r.output []).write r.output out) (by
    show r.Step (.writing 0 out) _ _ _
    have := Job.Step.write (j := r) (d := ((disk.write w.output []).write w.output b).write r.output []) (pos := 0) (n := out.length) (c := []) (rest := out)
      (if_pos rfl) hout (List.length_pos_iff.mpr hout)
    simpa [patch] using this)
  have x13 := Exec.step x12 (i := true) (ph := .ended .ok) (d := (((disk.write w.output []).write w.output b).write r.output []).write r.output out) (by
    exact Job.Step.close (j := r) (pos := out.length))
  refine ⟨_, _, x13, fun i => by cases i <;> simp, ?_, if_pos rfl⟩
  show (((disk.write w.output []).write w.output b).write r.output []).write r.output out w.output = some b
  unfold Disk.write
  rw [if_neg (Ne.symm hne), if_neg (Ne.symm hne), if_pos rfl]

/-! ### Examples -/

/-- The run `atsc -u x.bro`. -/
def jobU : Job := ⟨demoEnv, { demoArgs with uncompress := true }, "x.bro".toList⟩

/-- The compressed form of some samples, and their WBRO file. -/
def broOf (l : List Int) : Bytes := (compressData demoEnv.E demoEnv.p (l.map F64.lit) demoArgs.comp).toOption.getD []
def wbroOf (l : List Int) : Bytes := (WavBrro.toFileWithData (l.map F64.lit)).toOption.getD []

/-- A directory with `x.wbro` only. -/
def newDisk : Disk := fun q => if q = "x.wbro".toList then some (wbroOf [9, 11]) else none

/-- The hypotheses of C113_while. -/
example : newDisk jobX.input = some (wbroOf [9, 11]) ∧ newDisk jobX.output = none ∧ jobU.input = jobX.output ∧ jobU.output ≠ jobX.output := by decide +kernel
theorem broOf_output : Output jobX.env jobX.args (wbroOf [9, 11]) (broOf [9, 11]) :=
  .wbro rfl rfl (d := [9, 11].map F64.lit) (by decide +kernel) (by decide +kernel)
example : Output jobU.env jobU.args (broOf [9, 11]) (wbroOf [9, 11]) :=
  .uncompress rfl (by decide +kernel) (by decide +kernel) (d := [9, 11].map F64.lit) (by decide +kernel) (by decide +kernel)

/-- The same with an older `x.bro`, of other samples. -/
def oldDisk : Disk := newDisk.write "x.bro".toList (broOf [5, 7])

/-- **C113 [the compressed file must be new], a case.** `x.wbro` holds 9 and 11, an older `x.bro` 5 and 7.  `atsc x.wbro` and `atsc -u x.bro` at the same time can
both end well and leave in `x.wbro` the samples 5 and 11. -/
theorem C113_refuted_example : ∃ sched t, Exec (fun i : Bool => if i then jobU else jobX) sched (.begin oldDisk) t ∧ (∀ i, t.at_ i = .ended .ok) ∧
    ∃ f, t.disk "x.wbro".toList = some f ∧ WavBrro.fromFile 16 f = .ok (.samples [F64.lit 5, F64.lit 11]) := by
  obtain ⟨sched, t, h1, h2, -, h4⟩ := C113_refuted_old jobX jobU oldDisk (wbroOf [9, 11]) (broOf [9, 11]) (broOf [5, 7]) 18 (by decide +kernel) broOf_output
    (by decide +kernel) (by decide +kernel) (by decide +kernel) rfl (by decide +kernel) (by decide +kernel) (by decide) (by decide +kernel) (by decide +kernel)
    (by decide +kernel) [F64.lit 5, F64.lit 11] (wbroOf [5, 11]) (by decide +kernel) (by decide +kernel) (by decide +kernel)
  exact ⟨sched, t, h1, h2, _, (by rw [show ("x.wbro".toList : List Char) = jobU.output by decide +kernel]; exact h4), by decide +kernel⟩

end Atsc
