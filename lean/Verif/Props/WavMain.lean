import Verif.Props.Wav
/- C96: the program wav2wbro as a whole. -/
namespace Atsc.Wav
open Atsc

/-- Specification: the file starts like a WAV file. -/
def LooksWav (c : Bytes) : Prop := 12 ≤ c.length ∧ c.take 4 = [82, 73, 70, 70] ∧ (c.drop 8).take 4 = [87, 65, 86, 69]

theorem isWav_iff (c : Bytes) : isWav c = .ok true ↔ LooksWav c := by
  unfold isWav LooksWav
  by_cases h : c.length < 12
  · rw [if_pos h]; constructor
    · intro e; cases e
    · intro e; omega
  · rw [if_neg h]
    constructor
    · intro e
      have e := Except.ok.inj e
      rw [Bool.and_eq_true, decide_eq_true_eq, decide_eq_true_eq] at e
      exact ⟨by omega, e⟩
    · rintro ⟨_, e1, e2⟩
      rw [decide_eq_true e1, decide_eq_true e2]; rfl

/-- Specification: what the values of the file are, given what the WAV library makes of it. -/
def Values (hound : Bytes → Option (Nat × List (Option Int))) (c : Bytes) (data : List F64) : Prop :=
  (hound c = none ∧ data = []) ∨ ∃ channels samples, hound c = some (channels, samples) ∧ readMetrics channels samples = .ok data

theorem stripWav_iff {name stem : List Char} : stripWav name = some stem ↔ name = stem ++ "wav".toList := by
  unfold stripWav
  constructor
  · intro h
    split at h
    · rename_i hs
      obtain ⟨t, rfl⟩ := hs
      have := Option.some.inj h
      rw [← this]
      simp
    · cases h
  · rintro rfl
    rw [if_pos ⟨stem, rfl⟩]
    simp

/-- Only the file named like the input, `wbro` instead of `wav`, may differ. -/
def OnlyOutput (fs fs' : Files) (name : List Char) (f : Bytes) : Prop :=
  ∃ stem, name = stem ++ "wav".toList ∧ fs' (stem ++ "wbro".toList) = some f ∧ ∀ q, q ≠ stem ++ "wbro".toList → fs' q = fs q

/-- **C96.** On a WAV file (up to 2^28 values that are not NaN) whose name ends in `wav` the program writes the file with the same name ending in `wbro`, which
reads back as the values of the input that are not NaN, in order, and changes nothing else; it ends without a panic unless `--validate` was given and
some value is NaN. -/
theorem C96_converts (hound : Bytes → Option (Nat × List (Option Int))) (p : Profile) (fs : Files) (stem : List Char) (flag : Bool) (c : Bytes)
    (data : List F64) (hc : fs (stem ++ "wav".toList) = some c) (hw : LooksWav c) (hd : Values hound c data)
    (hl : (data.filter fun x => !x.isNaN).length ≤ 2 ^ 28) (addr : Nat) (ha : 8 ∣ addr) :
    ∃ fs' r f, wavMain hound p fs (stem ++ "wav".toList) flag = (fs', r) ∧ OnlyOutput fs fs' (stem ++ "wav".toList) f ∧
      WavBrro.fromFile addr f = .ok (.samples (data.filter fun x => !x.isNaN)) ∧
      (r = .ok () ↔ flag = true → ∀ x ∈ data, x.isNaN = false) := by
  obtain ⟨w, hadd⟩ := C37_total p (data.filter fun x => !x.isNaN) (.inr (by omega))
  obtain ⟨f, h1, h2⟩ := C39_round_trip_added p _ hl w hadd addr ha
  have hread : readWav hound c = .ok data := by
    unfold readWav
    rcases hd with ⟨e1, e2⟩ | ⟨ch, ss, e1, e2⟩
    · rw [e1, e2]
    · rw [e1]; exact e2
  refine ⟨fun q => if q = stem ++ "wbro".toList then some f else fs q, if flag then validate data w.getSamples else .ok (), f, ?_,
    ⟨stem, rfl, if_pos rfl, fun q hq => if_neg hq⟩, h2, ?_⟩
  · unfold wavMain
    simp only [hc, (isWav_iff c).2 hw, hread, hadd, stripWav_iff.2 rfl, h1]
  · rw [(C37_add_get p _ w hadd).1]
    cases flag with
    | false => simp
    | true => simpa using C57_validate data

/-- **C96, whatever the input.** A run either changes nothing, or the input looked like a WAV file, its name ended in `wav`, and only the output file changed;
a run that ends without a panic is of the second kind. -/
theorem C96_effects (hound : Bytes → Option (Nat × List (Option Int))) (p : Profile) (fs fs' : Files) (name : List Char) (flag : Bool) (r : Except Panic Unit)
    (h : wavMain hound p fs name flag = (fs', r)) :
    (fs' = fs ∧ r ≠ .ok ()) ∨ ∃ c data f, fs name = some c ∧ LooksWav c ∧ Values hound c data ∧ OnlyOutput fs fs' name f ∧
      (r = .ok () ∨ (flag = true ∧ ∃ x ∈ data, x.isNaN = true)) := by
  unfold wavMain at h
  cases hc : fs name with
  | none => rw [hc] at h; obtain ⟨h1, h2⟩ := Prod.mk.inj h; exact .inl ⟨h1.symm, by rw [← h2]; simp⟩
  | some c =>
    simp only [hc] at h
    cases hw : isWav c with
    | error e => rw [hw] at h; obtain ⟨h1, h2⟩ := Prod.mk.inj h; exact .inl ⟨h1.symm, by rw [← h2]; simp⟩
    | ok b =>
      cases b with
      | false => rw [hw] at h; obtain ⟨h1, h2⟩ := Prod.mk.inj h; exact .inl ⟨h1.symm, by rw [← h2]; simp⟩
      | true =>
        simp only [hw] at h
        cases hr : readWav hound c with
        | error e => rw [hr] at h; obtain ⟨h1, h2⟩ := Prod.mk.inj h; exact .inl ⟨h1.symm, by rw [← h2]; simp⟩
        | ok data =>
          simp only [hr] at h
          have hv : Values hound c data := by
            unfold readWav at hr
            cases hh : hound c with
            | none => rw [hh] at hr; exact .inl ⟨hh, (Except.ok.inj hr).symm⟩
            | some q => rw [hh] at hr; exact .inr ⟨q.1, q.2, hh, hr⟩
          cases ha : WavBrro.addAll p .new (data.filter fun x => !x.isNaN) with
          | error e => rw [ha] at h; obtain ⟨h1, h2⟩ := Prod.mk.inj h; exact .inl ⟨h1.symm, by rw [← h2]; simp⟩
          | ok w =>
            simp only [ha] at h
            cases hs : stripWav name with
            | none => rw [hs] at h; obtain ⟨h1, h2⟩ := Prod.mk.inj h; exact .inl ⟨h1.symm, by rw [← h2]; simp⟩
            | some stem =>
              simp only [hs] at h
              cases ht : w.toFile with
              | error e => rw [ht] at h; obtain ⟨h1, h2⟩ := Prod.mk.inj h; exact .inl ⟨h1.symm, by rw [← h2]; simp⟩
              | ok out =>
                simp only [ht] at h
                obtain ⟨h1, h2⟩ := Prod.mk.inj h
                refine .inr ⟨c, data, out, rfl, (isWav_iff c).1 hw, hv, ⟨stem, stripWav_iff.1 hs, by rw [← h1]; exact if_pos rfl,
                  fun q hq => by rw [← h1]; exact if_neg hq⟩, ?_⟩
                rw [← h2, (C37_add_get p _ w ha).1]
                cases flag with
                | false => exact .inl rfl
                | true =>
                  by_cases hn : ∀ x ∈ data, x.isNaN = false
                  · exact .inl ((C57_validate data).2 hn)
                  · refine .inr ⟨rfl, ?_⟩
                    by_contra hcon
                    refine hn fun x hx => ?_
                    by_contra hx2
                    exact hcon ⟨x, hx, by simpa using hx2⟩

/-- C96: a file that does not look like a WAV file, a missing file and a name that does not end in `wav` are refused without any change. -/
theorem C96_refused (hound : Bytes → Option (Nat × List (Option Int))) (p : Profile) (fs : Files) (name : List Char) (flag : Bool)
    (h : (∀ c, fs name = some c → ¬ LooksWav c) ∨ ¬ "wav".toList <:+ name) :
    ∃ e, wavMain hound p fs name flag = (fs, .error e) := by
  obtain ⟨fs', r, hr⟩ : ∃ fs' r, wavMain hound p fs name flag = (fs', r) := ⟨_, _, rfl⟩
  rcases C96_effects hound p fs fs' name flag r hr with ⟨h1, h2⟩ | ⟨c, data, f, h1, h2, -, ⟨stem, h3, -⟩, -⟩
  · rw [hr, h1]
    cases r with
    | ok u => exact absurd rfl h2
    | error e => exact ⟨e, rfl⟩
  · rcases h with h | h
    · exact absurd h2 (h c h1)
    · exact absurd ⟨stem, h3.symm⟩ h

/-- C96 refuted, losslessness: a file with the right first 12 bytes that the WAV library cannot open is converted, without complaint, to an empty series. -/
theorem C96_refuted_unreadable (hound : Bytes → Option (Nat × List (Option Int))) (p : Profile) (fs : Files) (stem : List Char) (flag : Bool) (c : Bytes)
    (hc : fs (stem ++ "wav".toList) = some c) (hw : LooksWav c) (hn : hound c = none) (addr : Nat) (ha : 8 ∣ addr) :
    ∃ fs' f, wavMain hound p fs (stem ++ "wav".toList) flag = (fs', .ok ()) ∧ fs' (stem ++ "wbro".toList) = some f ∧
      WavBrro.fromFile addr f = .ok (.samples []) := by
  obtain ⟨fs', r, f, h1, ⟨stem', h2, h3, -⟩, h4, h5⟩ := C96_converts hound p fs stem flag c [] hc hw (.inl ⟨hn, rfl⟩) (by simp) addr ha
  obtain rfl := List.append_cancel_right h2
  rw [h5.2 (by simp)] at h1
  exact ⟨fs', f, h1, h3, h4⟩

/-- The hypotheses of `C96_converts` are met: a header, one value of four words. -/
example : LooksWav [82, 73, 70, 70, 0, 0, 0, 0, 87, 65, 86, 69] ∧
    Values (fun _ => some (4, (wavWords (F64.lit 7)).map some)) [82, 73, 70, 70, 0, 0, 0, 0, 87, 65, 86, 69] [F64.lit 7] := by
  refine ⟨⟨by decide, rfl, rfl⟩, .inr ⟨4, _, rfl, ?_⟩⟩
  have := C57_read [F64.lit 7] [] (by decide)
  simpa using this

/-! ### Other numbers of channels -/

/-- The value made of the words of one group of at most four channels: missing words are 0. -/
def groupValue (g : List Int) : F64 := joinHolder (g.map asU16 ++ List.replicate (4 - g.length) 0)

theorem group_loop {ch : Nat} (hch : ch ≤ 4) : ∀ (todo done : List Int) (old : List Nat) (acc : List F64) (rest : List (Option Int)), todo ≠ [] →
    done.length + todo.length = ch → old.length = 4 - done.length → old.drop todo.length = List.replicate (4 - ch) 0 →
    readLoop ch (done.map asU16 ++ old) done.length acc (todo.map some ++ rest) =
      readLoop ch ((done ++ todo).map asU16 ++ List.replicate (4 - ch) 0) 0 (acc ++ [groupValue (done ++ todo)]) rest := by
  intro todo
  induction todo with
  | nil => intro done old acc rest h; exact absurd rfl h
  | cons x todo ih =>
    intro done old acc rest _ h1 h2 h3
    rw [List.length_cons] at h1 h3
    cases old with
    | nil => rw [List.length_nil] at h2; omega
    | cons o old =>
      rw [List.length_cons] at h2
      rw [List.map_cons, List.cons_append, readLoop, if_pos (by simp)]
      have hset : (done.map asU16 ++ o :: old).set done.length (asU16 x) = (done ++ [x]).map asU16 ++ old := by
        rw [List.set_append_right _ _ (by simp)]
        simp
      simp only [hset]
      rw [List.drop_succ_cons] at h3
      by_cases hlast : todo = []
      · subst hlast
        rw [List.length_nil, List.drop_zero] at h3
        rw [List.length_nil] at h1
        rw [if_pos (by omega), h3]
        have : groupValue (done ++ [x]) = joinHolder ((done ++ [x]).map asU16 ++ List.replicate (4 - ch) 0) := by
          unfold groupValue
          rw [List.length_append, List.length_singleton, h1]
        rw [this]
        rfl
      · have hpos : 0 < todo.length := List.length_pos_iff.2 hlast
        rw [if_neg (by omega)]
        have := ih (done ++ [x]) old acc rest hlast (by rw [List.length_append, List.length_singleton]; omega)
          (by rw [List.length_append, List.length_singleton]; omega) h3
        rw [List.length_append, List.length_singleton, List.append_assoc, List.singleton_append] at this
        exact this

/-- C96, reading with one to four channels: each group of samples, one per channel, gives one value whose low words are the samples. -/
theorem C96_channels (ch : Nat) (h1 : 1 ≤ ch) (h4 : ch ≤ 4) (groups : List (List Int)) (hg : ∀ g ∈ groups, g.length = ch) :
    readMetrics ch (groups.flatten.map some) = .ok (groups.map groupValue) := by
  have key : ∀ (groups : List (List Int)) (holder : List Nat) (acc : List F64), (∀ g ∈ groups, g.length = ch) → holder.length = 4 →
      holder.drop ch = List.replicate (4 - ch) 0 →
      readLoop ch holder 0 acc (groups.flatten.map some) = .ok (acc ++ groups.map groupValue) := by
    intro groups
    induction groups with
    | nil => intro holder acc _ _ _; simp [readLoop]
    | cons g gs ih =>
      intro holder acc hg hl hd
      have hgl := hg g (by simp)
      have hne : g ≠ [] := by rintro rfl; simp at hgl; omega
      have := group_loop h4 g [] holder acc (gs.flatten.map some) hne (by simpa using hgl) (by simpa using hl) (by rw [hgl]; exact hd)
      rw [List.map_nil, List.nil_append, List.nil_append, List.length_nil] at this
      rw [List.flatten_cons, List.map_append, this, ih _ _ (fun q hq => hg q (by simp [hq])) (by simp [hgl]; omega) (by
        rw [← hgl]
        rw [List.drop_append_of_le_length (by simp)]
        simp)]
      simp
  exact key groups [0, 0, 0, 0] [] hg rfl (by
    match ch, h1, h4 with
    | 1, _, _ => rfl
    | 2, _, _ => rfl
    | 3, _, _ => rfl
    | 4, _, _ => rfl)

end Atsc.Wav
