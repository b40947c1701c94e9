import Verif.Props.WavIo
/- C117: an undisturbed run of wav2wbro after failed ones. -/
namespace Atsc.Wav
open Atsc

theorem wavWrite_only {f : Fault} {fs : Files} {o q : List Char} {t : Bytes} (h : (wavWrite f fs o t).1 q ≠ fs q) : q = o := by
  by_contra hq
  apply h
  unfold wavWrite
  dsimp only
  split
  · rfl
  · split
    · exact if_neg hq
    · split
      · exact if_neg hq
      · exact if_neg hq

/-- The files after disturbed runs of wav2wbro. -/
def afterWavRuns (hound : Bytes → Option (Nat × List (Option Int))) (p : Profile) (name : List Char) (flag : Bool) (fs : Files) (runs : List WavFaults) : Files :=
  runs.foldl (fun s f => (wavMainIo hound p f s name flag).1) fs

/-- The undisturbed run of wav2wbro, on any files that agree on its input: it writes its output, or nothing. -/
theorem wavMain_form (hound : Bytes → Option (Nat × List (Option Int))) (p : Profile) (fs : Files) (name : List Char) (flag : Bool) :
    (∃ stem b r, name = stem ++ "wav".toList ∧
      ∀ g : Files, g name = fs name → wavMain hound p g name flag = (fun q => if q = stem ++ "wbro".toList then some b else g q, r)) ∨
    ((∀ c data w bs stem, fs name = some c → LooksWav c → readWav hound c = .ok data → WavBrro.addAll p .new (data.filter fun x => !x.isNaN) = .ok w → w.toBytes = .ok bs →
        name ≠ stem ++ "wav".toList) ∧
      ∃ r, r ≠ .ok () ∧ ∀ g : Files, g name = fs name → wavMain hound p g name flag = (g, r)) := by
  by_cases h : ∃ c data w bs stem, fs name = some c ∧ LooksWav c ∧ readWav hound c = .ok data ∧ WavBrro.addAll p .new (data.filter fun x => !x.isNaN) = .ok w ∧
      w.toBytes = .ok bs ∧ name = stem ++ "wav".toList
  · obtain ⟨c, data, w, bs, stem, hc, hw, hr, ha, hb, rfl⟩ := h
    exact .inl ⟨stem, _, _, rfl, fun g hg => wavMain_of flag (hg.trans hc) hw hr ha hb⟩
  · refine .inr ⟨fun c data w bs stem hc hw hr ha hb hn => h ⟨c, data, w, bs, stem, hc, hw, hr, ha, hb, hn⟩, ?_⟩
    have key : ∀ (o : Option Bytes), fs name = o → ∃ r, r ≠ .ok () ∧ ∀ g : Files, g name = o → wavMain hound p g name flag = (g, r) := by
      intro o ho
      cases o with
      | none => exact ⟨.error .unwrap, by simp, fun g hg => by rw [wavMain, hg]⟩
      | some c =>
        cases hw : isWav c with
        | error e => exact ⟨.error e, by simp, fun g hg => by rw [wavMain, hg]; dsimp only; rw [hw]⟩
        | ok b =>
          cases b with
          | false => exact ⟨.error .explicit, by simp, fun g hg => by rw [wavMain, hg]; dsimp only; rw [hw]⟩
          | true =>
            cases hr : readWav hound c with
            | error e => exact ⟨.error e, by simp, fun g hg => by rw [wavMain, hg]; dsimp only; rw [hw]; dsimp only; rw [hr]⟩
            | ok data =>
              cases ha : WavBrro.addAll p .new (data.filter fun x => !x.isNaN) with
              | error e => exact ⟨.error e, by simp, fun g hg => by rw [wavMain, hg]; dsimp only; rw [hw]; dsimp only; rw [hr]; dsimp only; rw [ha]⟩
              | ok w =>
                cases hs : stripWav name with
                | none => exact ⟨.error .unwrap, by simp, fun g hg => by rw [wavMain, hg]; dsimp only; rw [hw]; dsimp only; rw [hr]; dsimp only; rw [ha]; dsimp only; rw [hs]⟩
                | some stem =>
                  cases ht : w.toBytes with
                  | error e =>
                    exact ⟨.error e, by simp, fun g hg => by
                      rw [wavMain, hg]; dsimp only; rw [hw]; dsimp only; rw [hr]; dsimp only; rw [ha]; dsimp only; rw [hs]; dsimp only; rw [toFile_of_error ht]⟩
                  | ok bs => exact absurd ⟨c, data, w, bs, stem, ho, (isWav_iff c).1 hw, hr, ha, ht, stripWav_iff.1 hs⟩ h
    exact key _ rfl

/-- **C117, wav2wbro.** After any number of runs of wav2wbro, whatever file operations fail in them, an undisturbed run ends as if they had never been -
provided the WAV library could open the file in each of them, or the undisturbed run ends well. -/
theorem C117_wav (hound : Bytes → Option (Nat × List (Option Int))) (p : Profile) (fs : Files) (name : List Char) (flag : Bool) (runs : List WavFaults)
    (h : (∀ f ∈ runs, f.opens = true) ∨ (wavMain hound p fs name flag).2 = .ok ()) :
    wavMain hound p (afterWavRuns hound p name flag fs runs) name flag = wavMain hound p fs name flag := by
  have hne : ∀ stem, name = stem ++ "wav".toList → name ≠ stem ++ "wbro".toList := by
    rintro stem rfl h
    have := List.append_cancel_left h
    revert this; decide
  have same : ∀ f g, (wavMainIo hound p f g name flag).1 name = g name := fun f g =>
    (C108_faults hound p f g (wavMainIo hound p f g name flag).1 name flag (wavMainIo hound p f g name flag).2 rfl).1 name hne
  rcases wavMain_form hound p fs name flag with ⟨stem, b, r, hn, hw⟩ | ⟨hno, r, hr, hw⟩
  · have key : ∀ (runs : List WavFaults) (g : Files), (g name = fs name ∧ ∀ q, g q ≠ fs q → q = stem ++ "wbro".toList) →
        ((afterWavRuns hound p name flag g runs) name = fs name ∧ ∀ q, (afterWavRuns hound p name flag g runs) q ≠ fs q → q = stem ++ "wbro".toList) := by
      intro runs
      induction runs with
      | nil => intro g h; exact h
      | cons f rs ih =>
        intro g h
        refine ih _ ⟨(same f g).trans h.1, fun q hq => ?_⟩
        dsimp only at hq
        by_contra hqo
        refine hq (Eq.trans ?_ (by by_contra hc; exact hqo (h.2 q hc)))
        refine (C108_faults hound p f g (wavMainIo hound p f g name flag).1 name flag (wavMainIo hound p f g name flag).2 rfl).1 q fun s hs => ?_
        have : s = stem := List.append_cancel_right (hs.symm.trans hn)
        rw [this]; exact hqo
    obtain ⟨k1, k2⟩ := key runs fs ⟨rfl, fun q h => absurd rfl h⟩
    rw [hw _ k1, hw fs rfl]
    congr 1
    funext q
    by_cases hq : q = stem ++ "wbro".toList
    · rw [if_pos hq, if_pos hq]
    · rw [if_neg hq, if_neg hq]
      by_contra hc; exact hq (k2 q hc)
  · rcases h with ho | hok
    · have key : ∀ (runs : List WavFaults), (∀ f ∈ runs, f.opens = true) → afterWavRuns hound p name flag fs runs = fs := by
        intro runs
        induction runs with
        | nil => intro _; rfl
        | cons f rs ih =>
          intro ho
          have : (wavMainIo hound p f fs name flag).1 = fs := by
            rcases wavMainIo_cases hound p f fs name flag with h0 | ⟨c, data, w, stem, bs, hc, hw', hr', ha, hn, hb, -⟩
            · rw [h0]
            · exact absurd hn (hno c data w bs stem hc hw' (readWavIo_ok (ho f (by simp)) hr') ha hb)
          show afterWavRuns hound p name flag (wavMainIo hound p f fs name flag).1 rs = fs
          rw [this]
          exact ih fun f hf => ho f (List.mem_cons_of_mem _ hf)
      rw [key runs ho]
    · rw [hw fs rfl] at hok; exact absurd hok hr

/-- **C117, wav2wbro, killed runs.** A run of wav2wbro that succeeds gives the same whatever is in its output file beforehand, in particular what killed runs left
there. -/
theorem C117_wav_killed (hound : Bytes → Option (Nat × List (Option Int))) (p : Profile) (fs fs' left : Files) (stem : List Char) (flag : Bool)
    (h : wavMain hound p fs (stem ++ "wav".toList) flag = (fs', .ok ())) (hl : ∀ q, q ≠ stem ++ "wbro".toList → left q = fs q) :
    wavMain hound p left (stem ++ "wav".toList) flag = (fs', .ok ()) := by
  have hne : stem ++ "wav".toList ≠ stem ++ "wbro".toList := by
    intro h
    have := List.append_cancel_left h
    revert this; decide
  rcases wavMain_form hound p fs (stem ++ "wav".toList) flag with ⟨stem', b, r, hn, hw⟩ | ⟨-, r, hr, hw⟩
  · obtain rfl : stem = stem' := List.append_cancel_right hn
    rw [hw fs rfl] at h
    rw [hw left (hl _ hne), ← h]
    congr 1
    funext q
    by_cases hq : q = stem ++ "wbro".toList
    · rw [if_pos hq, if_pos hq]
    · rw [if_neg hq, if_neg hq]; exact hl q hq
  · rw [hw fs rfl] at h
    exact absurd (congrArg Prod.snd h) hr

example : (let h : Bytes → Option (Nat × List (Option Int)) := fun _ => some (1, [some 5, some 6])
    let left : Files := fun q => if q = "a.wbro".toList then none else ioDemoFs q
    decide ((wavMain h .debug ioDemoFs ("a.".toList ++ "wav".toList) true).2 = .ok ()) &&
    decide ((wavMain h .debug left ("a.".toList ++ "wav".toList) true).1 "a.wbro".toList = (wavMain h .debug ioDemoFs ("a.".toList ++ "wav".toList) true).1 "a.wbro".toList)) = true := by
  decide +kernel

/-- **C117 refuted when the WAV library could not open the file** and the file cannot be converted anyway: the failed run put an empty series in the place of the output,
where it stays; the undisturbed run alone changes nothing. -/
theorem C117_refuted_unopened (hound : Bytes → Option (Nat × List (Option Int))) (p : Profile) (fs : Files) (stem : List Char) (flag : Bool) (c : Bytes) (e : Panic)
    (hc : fs (stem ++ "wav".toList) = some c) (hw : LooksWav c) (hr : readWav hound c = .error e) (addr : Nat) (ha : 8 ∣ addr) :
    wavMain hound p fs (stem ++ "wav".toList) flag = (fs, .error e) ∧
    ∃ g x, wavMain hound p (afterWavRuns hound p (stem ++ "wav".toList) flag fs [{ WavFaults.calm with opens := false }]) (stem ++ "wav".toList) flag = (g, .error e) ∧
      g (stem ++ "wbro".toList) = some x ∧ WavBrro.fromFile addr x = .ok (.samples []) := by
  have run : ∀ g : Files, g (stem ++ "wav".toList) = some c → wavMain hound p g (stem ++ "wav".toList) flag = (g, .error e) := by
    intro g hg
    unfold wavMain
    rw [hg]; dsimp only; rw [(isWav_iff c).2 hw]; dsimp only; rw [hr]
  refine ⟨run fs hc, ?_⟩
  obtain ⟨fs', x, h1, h2, h3⟩ := C108_refuted_unopened hound p fs stem flag c hc hw addr ha
  have hg : afterWavRuns hound p (stem ++ "wav".toList) flag fs [{ WavFaults.calm with opens := false }] = fs' := by
    show (wavMainIo hound p { WavFaults.calm with opens := false } fs (stem ++ "wav".toList) flag).1 = fs'
    rw [h1]
  refine ⟨fs', x, ?_, h2, h3⟩
  rw [hg]
  refine run fs' ?_
  rw [← hc]
  refine (C108_faults hound p _ fs fs' _ flag .ok h1).1 _ fun s hs he => ?_
  obtain rfl : stem = s := List.append_cancel_right hs
  have := List.append_cancel_left he
  revert this; decide

/-- `C117_wav` on a run with a full disk and one that could not read to the end; and the case of `C117_refuted_unopened`. -/
example : (let h : Bytes → Option (Nat × List (Option Int)) := fun _ => some (1, [some 5, some 6])
    let g := afterWavRuns h .debug "a.wav".toList false ioDemoFs [{ WavFaults.calm with out := { Fault.calm with body := .fails } }, { WavFaults.calm with samples := some 1 }]
    decide (g "a.wbro".toList = some WavBrro.header) && decide ((wavMain h .debug g "a.wav".toList false).2 = .ok ()) &&
    decide ((wavMain h .debug g "a.wav".toList false).1 "a.wbro".toList = (wavMain h .debug ioDemoFs "a.wav".toList false).1 "a.wbro".toList)) &&
    (let h : Bytes → Option (Nat × List (Option Int)) := fun _ => some (1, [some 5, none])
    let g := afterWavRuns h .debug "a.wav".toList false ioDemoFs [{ WavFaults.calm with opens := false }]
    decide ((wavMain h .debug ioDemoFs "a.wav".toList false).1 "a.wbro".toList = some [1, 2, 3]) &&
    decide ((wavMain h .debug g "a.wav".toList false).1 "a.wbro".toList ≠ some [1, 2, 3])) = true := by decide +kernel

end Atsc.Wav
