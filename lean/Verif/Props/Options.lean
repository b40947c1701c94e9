import Verif.Props.Rerun
import Verif.Props.Recompress
import Verif.Props.Interp
/- C98: options have an effect only where they are documented to have one. -/
namespace Atsc

theorem exec_mem {q : Plan} {c : Compressor} (hq : ∀ d ∈ q.compressors, d = c) : ∀ {sizes : List Nat} {i s : Nat} {ex : List (Compressor × List F64)},
    execLoop q i s sizes = .ok ex → ∀ x ∈ ex, x.1 = c ∧ x.2.length ≤ q.data.length := by
  intro sizes
  induction sizes with
  | nil => intro i s ex h x hx; cases h; cases hx
  | cons n sizes ih =>
    intro i s ex h x hx
    unfold execLoop at h
    cases hi : q.compressors[i]? with
    | none => rw [hi] at h; cases h
    | some d =>
      rw [hi] at h
      dsimp only at h
      by_cases hl : q.data.length < s + n
      · rw [if_pos hl] at h; cases h
      · rw [if_neg hl] at h
        obtain ⟨rest, h1, h⟩ := bind_ok_iff.1 h
        cases h
        rcases List.mem_cons.1 hx with rfl | hx
        · refine ⟨hq d (List.mem_of_getElem? hi), ?_⟩
          simp
        · exact ih h1 x hx

theorem bind_congr_ok {α β : Type} {m : Except Panic α} {f g : α → Except Panic β} (h : ∀ x, m = .ok x → f x = g x) : (m >>= f) = (m >>= g) := by
  cases m with
  | error e => rfl
  | ok x => exact h x rfl

theorem compressData_congr (E : Ext) (p : Profile) (data : List F64) (a a' : CompArgs) (hc : a.compressor = a'.compressor)
    (h : ∀ (s : Stream) (c : List F64), c.length ≤ (finiteSamples data).length →
      compressOne E p a s (a.compressor.toCompressor, c) = compressOne E p a' s (a.compressor.toCompressor, c)) :
    compressData E p data a = compressData E p data a' := by
  unfold compressData
  refine bind_congr_ok fun q hp => ?_
  have hd : q.data = finiteSamples data := by
    unfold Plan.plan at hp
    obtain ⟨o, -, hp⟩ := bind_ok_iff.1 hp
    have := Except.ok.inj hp
    rw [← this]
    exact cleanData_eq data
  rw [← hc]
  refine bind_congr_ok fun ex hx => ?_
  have hm := exec_mem (c := a.compressor.toCompressor) (fun d hd => (List.mem_replicate.1 hd).2) hx
  have : ∀ (ex : List (Compressor × List F64)), (∀ x ∈ ex, x.1 = a.compressor.toCompressor ∧ x.2.length ≤ q.data.length) → ∀ s,
      compressLoop E p a s ex = compressLoop E p a' s ex := by
    intro ex
    induction ex with
    | nil => intro _ s; rfl
    | cons x xs ih =>
      intro hx s
      unfold compressLoop
      obtain ⟨x1, x2⟩ := x
      obtain ⟨h1, h2⟩ := hx (x1, x2) (by simp)
      dsimp only at h1 h2
      subst h1
      rw [h s x2 (by rw [← hd]; exact h2)]
      exact bind_congr_ok fun s' _ => ih (fun y hy => hx y (by simp [hy])) s'
  rw [this ex hm]

/-- **C98, `-c`.** "Only works when compression = Auto": with any other compressor the file written does not depend on the level. -/
theorem C98_level (E : Ext) (p : Profile) (data : List F64) (a : CompArgs) (h : a.compressor ≠ .auto) (level : Nat) :
    compressData E p data { a with level := level } = compressData E p data a := by
  refine compressData_congr E p data _ _ rfl fun s c _ => ?_
  obtain ⟨t, e, l⟩ := a
  cases t <;> first | rfl | exact absurd rfl h

/-- **C98, `-e`.** With `noop`, `constant` and `rle` the file written does not depend on the error. -/
theorem C98_error (E : Ext) (p : Profile) (data : List F64) (a : CompArgs) (h : a.compressor = .noop ∨ a.compressor = .constant ∨ a.compressor = .rle) (e : Nat) :
    compressData E p data { a with error := e } = compressData E p data a := by
  refine compressData_congr E p data _ _ rfl fun s c _ => ?_
  obtain ⟨t, e', l⟩ := a
  rcases h with h | h | h <;> (dsimp only at h; subst h; rfl)

/-- C98, `-c` with `auto`: series of fewer than 128 finite samples are compressed the same at every level. -/
theorem C98_level_short (E : Ext) (p : Profile) (data : List F64) (a : CompArgs) (ha : a.level ≤ 6) (hs : (finiteSamples data).length < 128) (level : Nat)
    (hl : level ≤ 6) : compressData E p data { a with level := level } = compressData E p data a := by
  by_cases h : a.compressor = .auto
  · refine compressData_congr E p data _ _ rfl fun s c hc => ?_
    obtain ⟨t, e, l⟩ := a
    dsimp only at h ha ⊢
    subst h
    have key : ∀ k, k ≤ 6 → ∀ f e, Frame.compressBest E f c e k = Frame.compressBest E f c e 0 := by
      intro k hk f e
      have : ∃ n, compressionSpeed[k]? = some n ∧ 128 ≤ n := by
        match k, hk with
        | 0, _ => exact ⟨_, rfl, by decide⟩
        | 1, _ => exact ⟨_, rfl, by decide⟩
        | 2, _ => exact ⟨_, rfl, by decide⟩
        | 3, _ => exact ⟨_, rfl, by decide⟩
        | 4, _ => exact ⟨_, rfl, by decide⟩
        | 5, _ => exact ⟨_, rfl, by decide⟩
        | 6, _ => exact ⟨_, rfl, by decide⟩
      obtain ⟨n, h1, h2⟩ := this
      have h0 : compressionSpeed[0]? = some (2 ^ 31 - 1) := rfl
      unfold Frame.compressBest
      rw [h1, h0]
      dsimp only
      have i1 : ¬ c.length ≥ n := by omega
      have i2 : ¬ c.length ≥ 2 ^ 31 - 1 := by omega
      simp only [if_neg i1, if_neg i2]
    unfold compressOne Stream.compressChunkBoundedWith
    dsimp only [CompressorType.toCompressor]
    rw [key l ha, key level hl]
    rfl
  · exact C98_level E p data a h level

/-- **C98, `-u`.** Uncompressing depends on no other option. -/
theorem C98_uncompress (env : Env) (a b : RunArgs) (ha : a.uncompress = true) (hb : b.uncompress = true) (fs : Fs) (i : Input) :
    runMain env a fs i = runMain env b fs i := by
  have h1 : ∀ fs path, processSingle env a fs path = processSingle env b fs path := by
    intro fs path; unfold processSingle; rw [if_pos ha, if_pos hb]
  have h2 : ∀ fs path, runSingle env a fs path = runSingle env b fs path := by
    intro fs path; unfold runSingle; rw [h1]
  have h3 : ∀ (l : List (FPath × Bool)) fs, runDir env a fs l = runDir env b fs l := by
    intro l
    induction l with
    | nil => intro fs; rfl
    | cons x xs ih =>
      obtain ⟨q, f⟩ := x
      intro fs
      simp only [runDir, h2, ih]
  unfold runMain runArgs
  cases i <;> simp only [h2, h3]

/-- **C98, `--no-header` and `--fields`.** They matter only with `--csv`, and `--fields` only without `--no-header`. -/
theorem C98_csv_options (env : Env) (a : RunArgs) (nh : Bool) (fields : List Char) (fs : Fs) (i : Input) :
    (a.csv = false → runMain env { a with noHeader := nh, fields := fields } fs i = runMain env a fs i) ∧
    (a.noHeader = true → runMain env { a with fields := fields } fs i = runMain env a fs i) := by
  have lift : ∀ b : RunArgs, (∀ fs path, processSingle env b fs path = processSingle env a fs path) → runMain env b fs i = runMain env a fs i := by
    intro b h1
    have h2 : ∀ fs path, runSingle env b fs path = runSingle env a fs path := by
      intro fs path; unfold runSingle; rw [h1]
    have h3 : ∀ (l : List (FPath × Bool)) fs, runDir env b fs l = runDir env a fs l := by
      intro l
      induction l with
      | nil => intro fs; rfl
      | cons x xs ih =>
        obtain ⟨q, f⟩ := x
        intro fs
        simp only [runDir, h2, ih]
    unfold runMain runArgs
    cases i <;> simp only [h2, h3]
  constructor
  · intro hc
    refine lift _ fun fs path => ?_
    unfold processSingle
    simp only [hc]
    rfl
  · intro hn
    refine lift _ fun fs path => ?_
    unfold processSingle readCsv
    simp only [hn]
    rfl

/-- The options do have an effect where they are documented: the error with `polynomial` (storing 2 or 8 samples), `--csv` on the same file. -/
example : okAnd (compressData (Ext.dummy.withInterp) .debug [F64.lit 1, F64.lit 5, F64.lit 2, F64.lit 9, F64.lit 3, F64.lit 7] { compressor := .polynomial, error := 50, level := 0 }) (fun b =>
    okAnd (compressData (Ext.dummy.withInterp) .debug [F64.lit 1, F64.lit 5, F64.lit 2, F64.lit 9, F64.lit 3, F64.lit 7] { compressor := .polynomial, error := 1, level := 0 }) (fun b' =>
      b ≠ b')) = true := by decide +kernel
/-- The hypotheses of `C98_error` and `C98_level` on a concrete file. -/
example : okAnd (compressData Ext.dummy .debug [F64.lit 5, F64.lit 5, F64.lit (-7)] { compressor := .rle, error := 3, level := 0 }) (fun b =>
    okAnd (compressData Ext.dummy .debug [F64.lit 5, F64.lit 5, F64.lit (-7)] { compressor := .rle, error := 50, level := 6 }) (fun b' => b = b' ∧ 12 ≤ b.length)) = true := by
  decide +kernel
/-- `C98_level_short` on a concrete series. -/
example : okAnd (compressData Ext.dummy .debug [F64.lit 5, F64.lit 5, F64.lit 5] { compressor := .auto, error := 3, level := 0 }) (fun b =>
    okAnd (compressData Ext.dummy .debug [F64.lit 5, F64.lit 5, F64.lit 5] { compressor := .auto, error := 3, level := 6 }) (fun b' => b = b' ∧ 12 ≤ b.length)) = true := by
  decide +kernel

end Atsc
