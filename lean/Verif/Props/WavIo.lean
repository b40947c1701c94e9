import Verif.Model.WavIo
import Verif.Props.WavMain
import Verif.Props.IoFaults
import Verif.Props.CommandLine
/- C108: wav2wbro when file operations fail. -/
namespace Atsc.Wav
open Atsc

/-- How a run of the undisturbed program ends, as a status. -/
def ended (r : Files × Except Panic Unit) : Files × Ended := (r.1, if r.2 = .ok () then .ok else .panicked)

theorem toFile_of_bytes {w : WavBrro} {bs : Bytes} (h : w.toBytes = .ok bs) : w.toFile = .ok (WavBrro.wholeFile bs) := by
  unfold WavBrro.toFile; rw [h]; rfl

theorem toFile_of_error {w : WavBrro} {e : Panic} (h : w.toBytes = .error e) : w.toFile = .error e := by
  unfold WavBrro.toFile; rw [h]; rfl

theorem toBytes_ne_nil {w : WavBrro} {bs : Bytes} (h : w.toBytes = .ok bs) : bs ≠ [] := by
  unfold WavBrro.toBytes at h
  simp only [bind, Except.bind] at h
  split at h
  · cases h
  · split at h
    · cases h
    · rw [← Except.ok.inj h]; simp

theorem wavWrite_calm (f : Fault) (h0 : f.noCreate = false) (h1 : f.head = .all) (h2 : f.body = .all) (fs : Files) (o : List Char) (bs : Bytes) :
    wavWrite f fs o bs = (fun q => if q = o then some (WavBrro.wholeFile bs) else fs q, .ok) := by
  unfold wavWrite
  rw [h0, h1, h2]
  rfl

theorem readWavIo_calm (hound : Bytes → Option (Nat × List (Option Int))) (f : WavFaults) (h1 : f.opens = true) (h2 : f.samples = none) (c : Bytes) :
    readWavIo hound f c = readWav hound c := by
  unfold readWavIo readWav
  rw [if_pos h1, h2]
  rfl

/-- The conversion from the values on, undisturbed: what `wavMain` does with them. -/
theorem C108_undisturbed (hound : Bytes → Option (Nat × List (Option Int))) (p : Profile) (fs : Files) (name : List Char) (flag : Bool) :
    wavMainIo hound p .calm fs name flag = ended (wavMain hound p fs name flag) := by
  unfold wavMainIo wavMain
  cases hc : fs name with
  | none => rfl
  | some c =>
    dsimp only
    rw [if_pos (show WavFaults.calm.header = true from rfl)]
    cases hw : isWav c with
    | error e => rfl
    | ok b =>
      cases b with
      | false => rfl
      | true =>
        dsimp only
        rw [readWavIo_calm hound .calm rfl rfl]
        cases hr : readWav hound c with
        | error e => rfl
        | ok data =>
          dsimp only
          cases ha : WavBrro.addAll p .new (data.filter fun x => !x.isNaN) with
          | error e => rfl
          | ok w =>
            dsimp only
            cases hs : stripWav name with
            | none => rfl
            | some stem =>
              dsimp only
              cases ht : w.toBytes with
              | error e => rw [toFile_of_error ht]; rfl
              | ok bs =>
                rw [toFile_of_bytes ht]
                dsimp only
                rw [wavWrite_calm _ rfl rfl rfl]
                dsimp only
                unfold ended
                cases flag with
                | false => rfl
                | true =>
                  cases hv : validate data w.getSamples with
                  | ok u => rfl
                  | error e => rfl

/-- Samples that cannot be read end the program. -/
theorem readLoop_none (ch : Nat) (rest : List (Option Int)) : ∀ (ss : List (Option Int)) (holder : List Nat) (cur : Nat) (acc : List F64),
    ∃ e, readLoop ch holder cur acc (ss ++ none :: rest) = .error e := by
  intro ss
  induction ss with
  | nil => intro holder cur acc; exact ⟨.unwrap, rfl⟩
  | cons s ss ih =>
    intro holder cur acc
    cases s with
    | none => exact ⟨.unwrap, rfl⟩
    | some v =>
      rw [List.cons_append, readLoop]
      by_cases h : cur < holder.length
      · rw [if_pos h]
        dsimp only
        by_cases h2 : cur + 1 = ch
        · rw [if_pos h2]; exact ih _ _ _
        · rw [if_neg h2]; exact ih _ _ _
      · rw [if_neg h]; exact ⟨_, rfl⟩

/-- What is read in spite of the faults is what is in the file, unless the file could not be opened. -/
theorem readWavIo_ok {hound : Bytes → Option (Nat × List (Option Int))} {f : WavFaults} (ho : f.opens = true) {c : Bytes} {data : List F64}
    (h : readWavIo hound f c = .ok data) : readWav hound c = .ok data := by
  unfold readWavIo at h
  unfold readWav
  rw [if_pos ho] at h
  cases hh : hound c with
  | none => rw [hh] at h; exact h
  | some q =>
    rw [hh] at h
    dsimp only at h ⊢
    unfold brokenOff at h
    cases hs : f.samples with
    | none => rw [hs] at h; exact h
    | some n =>
      rw [hs] at h
      dsimp only at h
      by_cases hn : n < q.2.length
      · rw [if_pos hn] at h
        obtain ⟨e, he⟩ := readLoop_none q.1 [] (q.2.take n) [0, 0, 0, 0] 0 []
        unfold readMetrics at h
        rw [he] at h; cases h
      · rw [if_neg hn] at h; exact h

theorem wavWrite_cases (f : Fault) (fs : Files) (o : List Char) (t : Bytes) (ht : t ≠ []) :
    (wavWrite f fs o t = (fs, .panicked)) ∨
    (∃ k, k < (WavBrro.wholeFile t).length ∧ wavWrite f fs o t = (fun q => if q = o then some ((WavBrro.wholeFile t).take k) else fs q, .panicked)) ∨
    (∃ x, wavWrite f fs o t = (fun q => if q = o then some x else fs q, .ok) ∧ (f.NoShort → x = WavBrro.wholeFile t)) := by
  have hw := wholeFile_eq ht
  have hlen : (WavBrro.wholeFile t).length = 12 + t.length := by rw [hw, List.length_append]; rfl
  have hl : t.length ≠ 0 := fun h => ht (List.length_eq_zero_iff.1 h)
  unfold wavWrite
  dsimp only
  by_cases h : f.noCreate = true
  · rw [if_pos h]; exact .inl rfl
  · rw [if_neg h]
    cases h1 : f.head.count 12 with
    | none => exact .inr (.inl ⟨0, by omega, rfl⟩)
    | some k1 =>
      have hk1 : k1 ≤ 12 := by
        cases hh : f.head <;> rw [hh] at h1 <;> simp only [Wrote.count, Option.some.injEq, reduceCtorEq] at h1 <;> omega
      dsimp only
      cases h2 : f.body.count t.length with
      | none =>
        refine .inr (.inl ⟨k1, by omega, ?_⟩)
        rw [hw, List.take_append_of_le_length (by exact hk1)]
      | some k2 =>
        refine .inr (.inr ⟨_, rfl, fun hn => ?_⟩)
        have e1 : k1 = 12 := by
          cases hh : f.head with
          | all => rw [hh] at h1; exact (Option.some.inj h1).symm
          | short n => exact absurd hh (hn.1 n)
          | fails => rw [hh] at h1; cases h1
        have e2 : k2 = t.length := by
          cases hh : f.body with
          | all => rw [hh] at h2; exact (Option.some.inj h2).symm
          | short n => exact absurd hh (hn.2 n)
          | fails => rw [hh] at h2; cases h2
        rw [e1, e2]
        rfl

/-- A disturbed run stops before anything is written, or has read everything and comes to the writing. -/
theorem wavMainIo_cases (hound : Bytes → Option (Nat × List (Option Int))) (p : Profile) (f : WavFaults) (fs : Files) (name : List Char) (flag : Bool) :
    wavMainIo hound p f fs name flag = (fs, .panicked) ∨
    ∃ c data w stem bs, fs name = some c ∧ LooksWav c ∧ readWavIo hound f c = .ok data ∧ WavBrro.addAll p .new (data.filter fun x => !x.isNaN) = .ok w ∧
      name = stem ++ "wav".toList ∧ w.toBytes = .ok bs ∧
      wavMainIo hound p f fs name flag = (match wavWrite f.out fs (stem ++ "wbro".toList) bs with
        | (fs', .ok) => (fs', if flag = true ∧ validate data w.getSamples ≠ .ok () then .panicked else .ok)
        | r => r) := by
  unfold wavMainIo
  cases hc : fs name with
  | none => exact .inl rfl
  | some c =>
    dsimp only
    by_cases hh : f.header = true
    · rw [if_pos hh]
      cases hw : isWav c with
      | error e => exact .inl rfl
      | ok b =>
        cases b with
        | false => exact .inl rfl
        | true =>
          dsimp only
          cases hr : readWavIo hound f c with
          | error e => exact .inl rfl
          | ok data =>
            dsimp only
            cases ha : WavBrro.addAll p .new (data.filter fun x => !x.isNaN) with
            | error e => exact .inl rfl
            | ok w =>
              dsimp only
              cases hs : stripWav name with
              | none => exact .inl rfl
              | some stem =>
                dsimp only
                cases ht : w.toBytes with
                | error e => exact .inl rfl
                | ok bs => exact .inr ⟨c, data, w, stem, bs, rfl, (isWav_iff c).1 hw, hr, ha, stripWav_iff.1 hs, ht, rfl⟩
    · rw [if_neg hh]; exact .inl rfl

/-- What the undisturbed program does with the same values. -/
theorem wavMain_of {hound : Bytes → Option (Nat × List (Option Int))} {p : Profile} {fs : Files} {stem : List Char} {c : Bytes} {data : List F64} {w : WavBrro}
    {bs : Bytes} (flag : Bool) (hc : fs (stem ++ "wav".toList) = some c) (hw : LooksWav c) (hr : readWav hound c = .ok data)
    (ha : WavBrro.addAll p .new (data.filter fun x => !x.isNaN) = .ok w) (hb : w.toBytes = .ok bs) :
    wavMain hound p fs (stem ++ "wav".toList) flag =
      (fun q => if q = stem ++ "wbro".toList then some (WavBrro.wholeFile bs) else fs q, if flag then validate data w.getSamples else .ok ()) := by
  unfold wavMain
  rw [hc]
  dsimp only
  rw [(isWav_iff c).2 hw]
  dsimp only
  rw [hr]
  dsimp only
  rw [ha]
  dsimp only
  rw [stripWav_iff.2 rfl]
  dsimp only
  rw [toFile_of_bytes hb]

/-- **C108.** Whatever file operations fail in a run of wav2wbro: no file but the output changes; it ends with success or with a panic; a panic leaves
everything as it was, or the output as a beginning of the file that was being written, or (only with `--validate`) the files as the undisturbed run would
have left them; and success means, unless the input could not be opened the second time (`C108_refuted_unopened`), that the run went as the undisturbed
one - provided the two writes never write less than asked without an error. -/
theorem C108_faults (hound : Bytes → Option (Nat × List (Option Int))) (p : Profile) (f : WavFaults) (fs fs' : Files) (name : List Char) (flag : Bool) (e : Ended)
    (h : wavMainIo hound p f fs name flag = (fs', e)) :
    (∀ q, (∀ stem, name = stem ++ "wav".toList → q ≠ stem ++ "wbro".toList) → fs' q = fs q) ∧
    (e = .ok ∨ e = .panicked) ∧
    (f.opens = true → f.out.NoShort →
      (e = .ok → wavMain hound p fs name flag = (fs', .ok ())) ∧
      (e = .panicked → fs' = fs ∨
        (∃ stem b k, name = stem ++ "wav".toList ∧ (wavMain hound p fs name flag).1 (stem ++ "wbro".toList) = some b ∧ k < b.length ∧
          fs' (stem ++ "wbro".toList) = some (b.take k)) ∨
        (flag = true ∧ fs' = (wavMain hound p fs name flag).1))) := by
  rcases wavMainIo_cases hound p f fs name flag with h0 | ⟨c, data, w, stem, bs, hc, hw, hr, ha, rfl, hb, hm⟩
  · rw [h] at h0
    obtain ⟨rfl, rfl⟩ := Prod.mk.inj h0
    exact ⟨fun q _ => rfl, .inr rfl, fun _ _ => ⟨fun e => (by cases e), fun _ => .inl rfl⟩⟩
  · rw [h] at hm
    rcases wavWrite_cases f.out fs (stem ++ "wbro".toList) bs (toBytes_ne_nil hb) with e1 | ⟨k, hk, e1⟩ | ⟨x, e1, hx⟩
    · rw [e1] at hm
      obtain ⟨rfl, rfl⟩ := Prod.mk.inj hm
      exact ⟨fun q _ => rfl, .inr rfl, fun _ _ => ⟨fun e => (by cases e), fun _ => .inl rfl⟩⟩
    · rw [e1] at hm
      obtain ⟨rfl, rfl⟩ := Prod.mk.inj hm
      refine ⟨fun q hq => if_neg (hq stem rfl), .inr rfl, fun ho _ => ⟨fun e => (by cases e), fun _ => .inr (.inl ⟨stem, _, k, rfl, ?_, hk, if_pos rfl⟩)⟩⟩
      rw [wavMain_of flag hc hw (readWavIo_ok ho hr) ha hb]
      exact if_pos rfl
    · rw [e1] at hm
      obtain ⟨rfl, he⟩ := Prod.mk.inj hm
      refine ⟨fun q hq => if_neg (hq stem rfl), ?_, fun ho hn => ?_⟩
      · by_cases hv : flag = true ∧ validate data w.getSamples ≠ .ok ()
        · rw [if_pos hv] at he; exact .inr he
        · rw [if_neg hv] at he; exact .inl he
      · rw [hx hn, wavMain_of flag hc hw (readWavIo_ok ho hr) ha hb]
        by_cases hv : flag = true ∧ validate data w.getSamples ≠ .ok ()
        · rw [if_pos hv] at he
          subst he
          exact ⟨fun e => (by cases e), fun _ => .inr (.inr ⟨hv.1, rfl⟩)⟩
        · rw [if_neg hv] at he
          subst he
          refine ⟨fun _ => ?_, fun e => (by cases e)⟩
          cases flag with
          | false => rfl
          | true =>
            have : validate data w.getSamples = .ok () := by by_contra hcon; exact hv ⟨rfl, hcon⟩
            rw [if_pos rfl, this]

/-- A run whose input cannot be opened or read to its end, or whose output cannot be created, ends with a panic and changes nothing. -/
theorem C108_stops (hound : Bytes → Option (Nat × List (Option Int))) (p : Profile) (f : WavFaults) (fs : Files) (name : List Char) (flag : Bool)
    (h : f.header = false ∨ f.out.noCreate = true ∨
      (f.opens = true ∧ ∃ c ch ss k, fs name = some c ∧ hound c = some (ch, ss) ∧ f.samples = some k ∧ k < ss.length)) :
    wavMainIo hound p f fs name flag = (fs, .panicked) := by
  rcases h with h | h | ⟨ho, c, ch, ss, k, h1, h2, h3, h4⟩
  · unfold wavMainIo
    cases hc : fs name with
    | none => rfl
    | some c => dsimp only; rw [if_neg (by simp [h])]
  · rcases wavMainIo_cases hound p f fs name flag with h0 | ⟨c, data, w, stem, bs, -, -, -, -, -, -, hm⟩
    · exact h0
    · rw [hm]
      unfold wavWrite
      dsimp only
      rw [if_pos h]
  · rcases wavMainIo_cases hound p f fs name flag with h0 | ⟨c', data, w, stem, bs, hc, -, hr, -⟩
    · exact h0
    · rw [h1] at hc
      obtain rfl := Option.some.inj hc
      unfold readWavIo at hr
      rw [if_pos ho, h2] at hr
      unfold brokenOff readMetrics at hr
      rw [h3] at hr
      dsimp only at hr
      rw [if_pos h4] at hr
      obtain ⟨e, he⟩ := readLoop_none ch [] (ss.take k) [0, 0, 0, 0] 0 []
      rw [he] at hr; cases hr

/-- **The exception.** When the input cannot be opened the second time, for example because too many files are open, the program replaces the output by a
WBRO file without samples and ends with success, with `--validate` too. -/
theorem C108_refuted_unopened (hound : Bytes → Option (Nat × List (Option Int))) (p : Profile) (fs : Files) (stem : List Char) (flag : Bool) (c : Bytes)
    (hc : fs (stem ++ "wav".toList) = some c) (hw : LooksWav c) (addr : Nat) (ha : 8 ∣ addr) :
    ∃ fs' x, wavMainIo hound p { WavFaults.calm with opens := false } fs (stem ++ "wav".toList) flag = (fs', .ok) ∧ fs' (stem ++ "wbro".toList) = some x ∧
      WavBrro.fromFile addr x = .ok (.samples []) := by
  obtain ⟨fs', x, h1, h2, h3⟩ := C96_refuted_unreadable (fun _ => none) p fs stem flag c hc hw rfl addr ha
  refine ⟨fs', x, ?_, h2, h3⟩
  have : wavMainIo hound p { WavFaults.calm with opens := false } fs (stem ++ "wav".toList) flag =
      wavMainIo (fun _ => none) p .calm fs (stem ++ "wav".toList) flag := rfl
  rw [this, C108_undisturbed, h1]
  rfl

/-- From the words of the command line: status 0 under the conditions of `C108_faults` means that the undisturbed program ends with status 0 and
leaves the same files; refused command lines change nothing. -/
theorem C108_command (hound : Bytes → Option (Nat × List (Option Int))) (p : Profile) (f : WavFaults) (ho : f.opens = true) (hn : f.out.NoShort) (fs fs' : Files)
    (ts : List Tok) (h : wav2wbroIo hound p f fs ts = (fs', 0)) : wav2wbro hound p fs ts = (fs', 0) := by
  unfold wav2wbroIo at h
  unfold wav2wbro
  cases hr : wavCmd.run none false [] ts with
  | error s => rw [hr] at h; exact h
  | ok seen =>
    rw [hr] at h
    dsimp only at h ⊢
    cases hv : seen.value .input with
    | none => rw [hv] at h; exact h
    | some name =>
      rw [hv] at h
      dsimp only at h ⊢
      obtain ⟨h1, h2⟩ := Prod.mk.inj h
      have := ((C108_faults hound p f fs _ name _ _ (Prod.eta _).symm).2.2 ho hn).1 (status_zero.1 h2)
      rw [this, h1]

/-- The input of the examples: `a.wav`, with the header of a WAV file, and an old `a.wbro`. -/
def ioDemoFs : Files := fun q => if q = "a.wav".toList then some [82, 73, 70, 70, 0, 0, 0, 0, 87, 65, 86, 69] else if q = "a.wbro".toList then some [1, 2, 3] else none

/-- Runs of `C108_faults`: the disk is full when the samples are written, and a header is left in the place of the old output; reading breaks off after the
first sample, and nothing is changed; nothing fails, and the file is written. -/
example : (let r := wavMainIo (fun _ => some (1, [some 5, some 6])) .debug { WavFaults.calm with out := { Fault.calm with body := .fails } } ioDemoFs "a.wav".toList false
    decide (r.1 "a.wbro".toList = some WavBrro.header) && decide (r.2 = .panicked)) &&
    (let r := wavMainIo (fun _ => some (1, [some 5, some 6])) .debug { WavFaults.calm with samples := some 1 } ioDemoFs "a.wav".toList false
    decide (r.1 "a.wbro".toList = some [1, 2, 3]) && decide (r.2 = .panicked)) &&
    (let r := wavMainIo (fun _ => some (1, [some 5, some 6])) .debug { WavFaults.calm with samples := some 2 } ioDemoFs "a.wav".toList false
    decide ((r.1 "a.wbro".toList).map List.length = some 52) && decide (r.2 = .ok)) = true := by
  decide +kernel

end Atsc.Wav
