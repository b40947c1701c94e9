import Verif.Spec.Builds
import Verif.Props.Programs
import Verif.Props.Layout
/- C119: debug and release builds. -/
namespace Atsc

theorem Builds.same {α : Type} (x : Except Panic α) : SameBuilds (fun _ => x) := Or.inl rfl

theorem SameBuilds.bind {α β : Type} {f : Profile → Except Panic α} {g : Profile → α → Except Panic β} (hf : SameBuilds f)
    (hg : ∀ a, SameBuilds fun p => g p a) : SameBuilds (fun p => f p >>= g p) := by
  unfold SameBuilds at *
  dsimp only
  rcases hf with h | h
  · rw [h]
    cases f .release with
    | error e => exact Or.inl rfl
    | ok a => exact hg a
  · rw [h]; exact Or.inr rfl

theorem SameBuilds.ite {α : Type} {c : Prop} [Decidable c] {f g : Profile → Except Panic α} (hf : SameBuilds f) (hg : SameBuilds g) :
    SameBuilds (fun p => if c then f p else g p) := by
  by_cases h : c
  · simp only [if_pos h]; exact hf
  · simp only [if_neg h]; exact hg

theorem i32op_builds (a : Int) : SameBuilds (fun p => i32op p a) := by
  unfold SameBuilds i32op
  dsimp only
  by_cases h : InI32 a
  · left; rw [if_pos h, if_pos h]
  · right; rw [if_neg h]

namespace Vsri

theorem calculateB_builds (s : Seg) : SameBuilds (fun p => calculateB p s) := (i32op_builds _).bind fun _ => i32op_builds _

theorem fake_builds (v : Vsri) (y : Int) : SameBuilds (fun p => v.fakeSegment p y) := (i32op_builds _).bind fun _ => Builds.same _

theorem generate_builds (v : Vsri) (y : Int) : SameBuilds (fun p => v.generateSegment p y) :=
  SameBuilds.ite (Builds.same _) ((i32op_builds _).bind fun _ => Builds.same _)

theorem fits_builds (v : Vsri) (y : Int) : SameBuilds (fun p => v.fitsSegment p y) :=
  (calculateB_builds _).bind fun _ => (i32op_builds _).bind fun _ => (Builds.same _).bind fun _ => (i32op_builds _).bind fun _ => Builds.same _

theorem update_builds (v : Vsri) (y : Int) : SameBuilds (fun p => v.update p y) := by
  unfold update
  refine SameBuilds.ite (Builds.same _) (SameBuilds.ite ((fake_builds _ _).bind fun _ => Builds.same _) (SameBuilds.ite
    ((generate_builds _ _).bind fun _ => Builds.same _) ((fits_builds _ _).bind fun b => ?_)))
  exact SameBuilds.ite ((i32op_builds _).bind fun _ => Builds.same _) ((fake_builds _ _).bind fun _ => Builds.same _)

theorem run_builds : ∀ (ys : List Int) (v : Vsri), SameBuilds (fun p => Vsri.run p v ys)
  | [], _ => Builds.same _
  | y :: ys, v => (update_builds v y).bind fun _ => (run_builds ys _).bind fun _ => Builds.same _

theorem sampleCount_builds (v : Vsri) : SameBuilds (fun p => v.sampleCount p) := i32op_builds _

theorem segEnd_builds (s : Seg) : SameBuilds (fun p => segEnd p s) := (i32op_builds _).bind fun _ => (i32op_builds _).bind fun _ => i32op_builds _

theorem getSampleIn_builds (y : Int) : ∀ ss : List Seg, SameBuilds (fun p => getSampleIn p y ss)
  | [] => Builds.same _
  | _ :: ss => (segEnd_builds _).bind fun _ => SameBuilds.ite
    ((calculateB_builds _).bind fun _ => (i32op_builds _).bind fun _ => (Builds.same _).bind fun _ => Builds.same _) (getSampleIn_builds y ss)

theorem getTimeIn_builds (x : Int) : ∀ ss : List Seg, SameBuilds (fun p => getTimeIn p x ss)
  | [] => Builds.same _
  | _ :: ss => SameBuilds.ite ((i32op_builds _).bind fun _ => SameBuilds.ite
    ((i32op_builds _).bind fun _ => (i32op_builds _).bind fun _ => Builds.same _) (getTimeIn_builds x ss)) (getTimeIn_builds x ss)

theorem getTime_builds (v : Vsri) (x : Int) : SameBuilds (fun p => v.getTime p x) :=
  SameBuilds.ite (Builds.same _) ((sampleCount_builds v).bind fun _ => SameBuilds.ite (Builds.same _) (SameBuilds.ite (Builds.same _) (getTimeIn_builds _ _)))

theorem mapM_builds {α β : Type} {f : Profile → α → Except Panic β} (h : ∀ a, SameBuilds fun p => f p a) : ∀ l : List α, SameBuilds (fun p => l.mapM (f p))
  | [] => by simp only [List.mapM_nil]; exact Builds.same _
  | a :: l => by
    simp only [List.mapM_cons]
    exact (h a).bind fun _ => (mapM_builds h l).bind fun _ => Builds.same _

theorem allTimestamps_builds (v : Vsri) : SameBuilds (fun p => v.allTimestamps p) :=
  (mapM_builds (fun _ => mapM_builds (fun _ => (i32op_builds _).bind fun _ => i32op_builds _) _) v.segs).bind fun _ => Builds.same _

theorem prevIn_builds (y : Int) : ∀ ss : List Seg, SameBuilds (fun p => prevIn p y ss)
  | [] => Builds.same _
  | _ :: ss => SameBuilds.ite ((i32op_builds _).bind fun _ => Builds.same _) (prevIn_builds y ss)

theorem getPrevious_builds (v : Vsri) (y : Int) : SameBuilds (fun p => v.getPrevious p y) :=
  SameBuilds.ite (Builds.same _) (SameBuilds.ite ((sampleCount_builds v).bind fun _ => Builds.same _) (prevIn_builds _ _))

theorem isEmptyIn_builds (a b : Int) : ∀ (ss : List Seg) (prev : Int) (k : Nat), SameBuilds (fun p => isEmptyIn p a b prev k ss)
  | [], _, _ => Builds.same _
  | _ :: ss, _, _ => (segEnd_builds _).bind fun _ => SameBuilds.ite (Builds.same _) (SameBuilds.ite (Builds.same _) (SameBuilds.ite (Builds.same _)
    (isEmptyIn_builds a b ss _ _)))

end Vsri

/-- **C119, the index.** Whatever the index and the argument (both within `i32` or not), every operation of the index ends the same way in both builds, or
the debug build panics on an overflow. -/
theorem C119_index (v : Vsri) (y a b : Int) (ys : List Int) (file : Option Bytes) : SameBuilds (fun p => v.update p y) ∧ SameBuilds (fun p => Vsri.run p v ys) ∧
    SameBuilds (fun p => v.sampleCount p) ∧ SameBuilds (fun p => v.getSample p y) ∧ SameBuilds (fun p => v.getTime p y) ∧ SameBuilds (fun p => v.allTimestamps p) ∧
    SameBuilds (fun p => v.getPrevious p y) ∧ SameBuilds (fun p => v.thisOrNext p y) ∧ SameBuilds (fun p => v.thisOrPrevious p y) ∧
    SameBuilds (fun p => v.isEmpty p a b) ∧ SameBuilds (fun p => Vsri.sampleLocation p file y) := by
  refine ⟨v.update_builds y, Vsri.run_builds ys v, v.sampleCount_builds, Vsri.getSampleIn_builds _ _, v.getTime_builds y, v.allTimestamps_builds,
    v.getPrevious_builds y, ?_, ?_, ?_, ?_⟩
  · exact (Vsri.getSampleIn_builds y v.segs).bind fun o => Builds.same _
  · exact (Vsri.getSampleIn_builds y v.segs).bind fun _ => (v.getPrevious_builds y).bind fun _ => Builds.same _
  · exact SameBuilds.ite (Builds.same _) (Vsri.isEmptyIn_builds _ _ _ _ _)
  · cases file with
    | none => exact Builds.same _
    | some c =>
      refine (Builds.same _).bind fun o => ?_
      cases o with
      | none => exact Builds.same _
      | some v => exact SameBuilds.ite (Vsri.getSampleIn_builds _ _) (Builds.same _)

theorem addSample_builds (w : WavBrro) (x : F64) : SameBuilds (fun p => w.addSample p x) := by
  refine (Builds.same _).bind fun w2 => ?_
  by_cases h : w2.sampleCount + 1 < 4294967296
  · left; dsimp only; rw [if_pos h, if_pos h]
  · right; dsimp only; rw [if_neg h]

theorem addAll_builds : ∀ (xs : List F64) (w : WavBrro), SameBuilds (fun p => WavBrro.addAll p w xs)
  | [], _ => Builds.same _
  | x :: xs, w => (addSample_builds w x).bind fun _ => addAll_builds xs _

theorem appendSamples_builds (valid : Int → Bool) : ∀ (ss : List MSample) (m : Metric), SameBuilds (fun p => Metric.appendSamples p valid m ss)
  | [], _ => Builds.same _
  | s :: ss, m => by
    refine (Builds.same _).bind fun ts => (Vsri.update_builds _ _).bind fun r => ?_
    exact SameBuilds.ite ((addSample_builds _ _).bind fun _ => appendSamples_builds valid ss _) (Builds.same _)

theorem fromSamples_builds (valid : Int → Bool) (ss : List MSample) : SameBuilds (fun p => Metric.fromSamples p valid ss) :=
  (appendSamples_builds valid ss _).bind fun _ => Builds.same _

theorem stamp_builds (v : Vsri) : ∀ (xs : List F64) (i : Nat), SameBuilds (fun p => Metric.stamp p v i xs)
  | [], _ => Builds.same _
  | x :: xs, i => by
    refine (Vsri.getTime_builds v _).bind fun o => ?_
    cases o with
    | none => exact Builds.same _
    | some t => exact (stamp_builds v xs (i + 1)).bind fun _ => Builds.same _

/-- **C119, series of samples.** Adding samples to a WavBrro series, ingesting timed samples and reading them back. -/
theorem C119_series (w : WavBrro) (xs : List F64) (valid : Int → Bool) (m : Metric) (ss : List MSample) : SameBuilds (fun p => WavBrro.addAll p w xs) ∧
    SameBuilds (fun p => Metric.appendSamples p valid m ss) ∧ SameBuilds (fun p => Metric.fromSamples p valid ss) ∧ SameBuilds (fun p => m.getSamples p) :=
  ⟨addAll_builds xs w, appendSamples_builds valid ss m, fromSamples_builds valid ss, stamp_builds _ _ _⟩

theorem push_builds (s : Stream) (f : Frame) : SameBuilds (fun p => s.push p f) := by
  refine SameBuilds.bind (f := fun p => s.header.addFrame p) ?_ (fun _ => Builds.same _)
  unfold SameBuilds Header.addFrame
  dsimp only
  by_cases h : s.header.frameCount = 255
  · right; rw [if_pos ⟨h, rfl⟩]
  · left; rw [if_neg (fun k => h k.1), if_neg (fun k => h k.1)]

theorem compressOne_builds (E : Ext) (a : CompArgs) (s : Stream) (x : Compressor × List F64) : SameBuilds (fun p => compressOne E p a s x) := by
  have h1 : SameBuilds (fun p => s.compressChunkBoundedWith E p x.2 x.1 a.bound a.level) := (Builds.same _).bind fun _ => push_builds _ _
  have h2 : SameBuilds (fun p => s.compressChunkWith E p x.2 x.1) := (Builds.same _).bind fun _ => push_builds _ _
  unfold compressOne
  cases a.compressor <;> first | exact h1 | exact h2

theorem compressLoop_builds (E : Ext) (a : CompArgs) : ∀ (l : List (Compressor × List F64)) (s : Stream), SameBuilds (fun p => compressLoop E p a s l)
  | [], _ => Builds.same _
  | x :: l, s => (compressOne_builds E a s x).bind fun _ => compressLoop_builds E a l _

theorem compressData_builds (E : Ext) (data : List F64) (a : CompArgs) : SameBuilds (fun p => compressData E p data a) :=
  (Builds.same _).bind fun _ => (Builds.same _).bind fun _ => (compressLoop_builds E a _ _).bind fun _ => Builds.same _

theorem apply_builds (E : Ext) (s : Stream) (op : ChunkOp) : SameBuilds (fun p => op.apply E p s) := by
  cases op with
  | plain d => exact SameBuilds.bind (g := fun p f => s.push p f) (Builds.same _) (fun f => push_builds s f)
  | «using» d c => exact SameBuilds.bind (g := fun p f => s.push p f) (Builds.same _) (fun f => push_builds s f)
  | bounded d c e k => exact SameBuilds.bind (g := fun p f => s.push p f) (Builds.same _) (fun f => push_builds s f)

theorem runOps_builds (E : Ext) : ∀ (ops : List ChunkOp) (s : Stream), SameBuilds (fun p => s.runOps E p ops)
  | [], _ => Builds.same _
  | op :: ops, s => by
    unfold SameBuilds
    dsimp only
    rw [Stream.runOps, Stream.runOps]
    rcases apply_builds E s op with h | h
    · dsimp only at h
      rw [h]
      cases op.apply E .release s with
      | error e => exact Or.inl rfl
      | ok s' => exact runOps_builds E ops s'
    · dsimp only at h
      rw [h]
      exact Or.inr rfl

/-- **C119, compressing.** The library calls that add a chunk to a stream, and the compression of a whole series. -/
theorem C119_compress (E : Ext) (s : Stream) (ops : List ChunkOp) (data : List F64) (a : CompArgs) : SameBuilds (fun p => s.runOps E p ops) ∧
    SameBuilds (fun p => compressData E p data a) := ⟨runOps_builds E ops s, compressData_builds E data a⟩

theorem compressOne_push (E : Ext) (a : CompArgs) (s : Stream) (x : Compressor × List F64) :
    ∃ f : Except Panic Frame, ∀ p, compressOne E p a s x = f >>= fun f => s.push p f := by
  unfold compressOne
  cases a.compressor <;> first | exact ⟨_, fun _ => rfl⟩

theorem compressLoop_count (E : Ext) (a : CompArgs) : ∀ (l : List (Compressor × List F64)) (s t : Stream), compressLoop E .release a s l = .ok t →
    s.header.frameCount.toNat + l.length ≤ 255 ∧ compressLoop E .debug a s l = .ok t ∨
    255 < s.header.frameCount.toNat + l.length ∧ compressLoop E .debug a s l = .error .overflow
  | [], s, t, h => Or.inl ⟨by have := s.header.frameCount.toNat_lt; rw [List.length_nil]; omega, h⟩
  | x :: l, s, t, h => by
    rw [compressLoop] at h ⊢
    obtain ⟨f, hf⟩ := compressOne_push E a s x
    rw [hf] at h ⊢
    cases f with
    | error e => cases h
    | ok f =>
      have hr : (Except.ok f >>= fun f => s.push .release f) =
          Except.ok (⟨{ s.header with frameCount := s.header.frameCount + 1 }, s.frames ++ [f.close]⟩ : Stream) := by
        show s.push .release f = _
        unfold Stream.push Header.addFrame
        rw [if_neg (by rintro ⟨-, h⟩; cases h)]
        rfl
      rw [hr] at h
      have h' : compressLoop E .release a ⟨{ s.header with frameCount := s.header.frameCount + 1 }, s.frames ++ [f.close]⟩ l = .ok t := h
      by_cases h255 : s.header.frameCount = 255
      · right
        refine ⟨by rw [h255, List.length_cons]; show 255 < 255 + _; omega, ?_⟩
        have hd : (Except.ok f >>= fun f => s.push .debug f) = Except.error Panic.overflow := by
          show s.push .debug f = _
          unfold Stream.push Header.addFrame
          rw [if_pos ⟨h255, rfl⟩]
          rfl
        rw [hd]
        rfl
      · have hd : (Except.ok f >>= fun f => s.push .debug f) =
            Except.ok (⟨{ s.header with frameCount := s.header.frameCount + 1 }, s.frames ++ [f.close]⟩ : Stream) := by
          show s.push .debug f = _
          unfold Stream.push Header.addFrame
          rw [if_neg (fun k => h255 k.1)]
          rfl
        rw [hd]
        have hn : (s.header.frameCount + 1).toNat = s.header.frameCount.toNat + 1 := by
          have h1 := s.header.frameCount.toNat_lt
          have h2 : s.header.frameCount.toNat ≠ 255 := fun k => h255 (UInt8.toNat_inj.1 k)
          rw [UInt8.toNat_add]
          show (s.header.frameCount.toNat + 1) % 256 = _
          omega
        have ih := compressLoop_count E a l _ t h'
        dsimp only at ih
        rw [hn] at ih
        rw [List.length_cons]
        rcases ih with ⟨i1, i2⟩ | ⟨i1, i2⟩
        · exact Or.inl ⟨by omega, i2⟩
        · exact Or.inr ⟨by omega, i2⟩

/-- **C119, compressing, exactly.** A series that a release build compresses is compressed by a debug build to the same bytes if it makes at most 255 frames
(C80 gives their number), and otherwise the debug build panics. -/
theorem C119_frames (E : Ext) (data : List F64) (a : CompArgs) (bs : Bytes) (h : compressData E .release data a = .ok bs) :
    ((frameSizes (finiteSamples data).length).length ≤ 255 → compressData E .debug data a = .ok bs) ∧
    (255 < (frameSizes (finiteSamples data).length).length → compressData E .debug data a = .error .overflow) := by
  obtain ⟨p, ex, h1, h2, h3, h4⟩ := C80_plan data a.compressor.toCompressor
  have hlen : ex.length = (frameSizes (finiteSamples data).length).length := by
    have := congrArg List.length h4
    rw [List.length_map] at this
    rw [this, layout]
    generalize frameSizes (finiteSamples data).length = zs
    generalize finiteSamples data = l
    induction zs generalizing l with
    | nil => rfl
    | cons z zs ih => rw [cutBy, List.length_cons, List.length_cons, ih]
  have eq : ∀ p', compressData E p' data a = (compressLoop E p' a Stream.new ex >>= fun s => .ok s.toBytes) := by
    intro p'
    unfold compressData
    rw [h1, ok_bind, h2, ok_bind]
  rw [eq] at h ⊢
  cases hs : compressLoop E .release a Stream.new ex with
  | error e => rw [hs] at h; cases h
  | ok t =>
    rw [hs] at h
    rcases compressLoop_count E a ex Stream.new t hs with ⟨k1, k2⟩ | ⟨k1, k2⟩
    · have k1 : 0 + ex.length ≤ 255 := k1
      rw [k2]
      exact ⟨fun _ => h, fun k => by omega⟩
    · have k1 : 255 < 0 + ex.length := k1
      rw [k2]
      exact ⟨fun k => by omega, fun _ => rfl⟩

/-- **C119, compressing, by the number of samples.** Below 247 * 131072 finite samples the builds compress to the same bytes; above 255 * 131072 the debug build panics. -/
theorem C119_samples (E : Ext) (data : List F64) (a : CompArgs) (bs : Bytes) (h : compressData E .release data a = .ok bs) :
    ((finiteSamples data).length < 32374784 → compressData E .debug data a = .ok bs) ∧
    (33423360 < (finiteSamples data).length → compressData E .debug data a = .error .overflow) := by
  obtain ⟨h1, h2⟩ := C119_frames E data a bs h
  obtain ⟨s1, s2⟩ := frameSizes_sum (finiteSamples data).length
  have hl := frameSizes_length (finiteSamples data).length
  refine ⟨fun hn => h1 (by omega), fun hn => h2 ?_⟩
  have hs := List.sum_le_card_nsmul _ 131072 (fun z hz => (s2 z hz).2)
  rw [s1, nsmul_eq_mul, Nat.cast_id] at hs
  omega

/-! ### The programs -/

/-- The program `p` is `q`, except that it may panic somewhere. -/
inductive Prog.Cut {κ : Type} : Prog κ → Prog κ → Prop
  | panic (q : Prog κ) : Prog.Cut (.done 101) q
  | done (s : Nat) : Prog.Cut (.done s) (.done s)
  | read {path : κ} {off : Nat} {len : Option Nat} {f g : Option Bytes → Prog κ} : (∀ o, Prog.Cut (f o) (g o)) → Prog.Cut (.read path off len f) (.read path off len g)
  | write {path : κ} {c : Bytes} {f g : Prog κ} : Prog.Cut f g → Prog.Cut (.write path c f) (.write path c g)

theorem Prog.Cut.refl {κ : Type} : ∀ p : Prog κ, Prog.Cut p p
  | .done s => .done s
  | .read _ _ _ f => .read fun o => Prog.Cut.refl (f o)
  | .write _ _ f => .write (Prog.Cut.refl f)

theorem Prog.Cut.alone {κ : Type} [DecidableEq κ] {p q : Prog κ} (h : Prog.Cut p q) (d : κ → Option Bytes) :
    p.alone d = q.alone d ∨ ((p.alone d).2 = 101 ∧ ∀ r, (p.alone d).1 r = d r ∨ ∃ b, q.Stores d r b ∧ (p.alone d).1 r = some b) := by
  induction h generalizing d with
  | panic q => exact Or.inr ⟨rfl, fun _ => Or.inl rfl⟩
  | done s => exact Or.inl rfl
  | read _ ih => exact ih _ d
  | @write path c f g _ ih =>
    rcases ih (put d path c) with h | ⟨h1, h2⟩
    · exact Or.inl h
    · refine Or.inr ⟨h1, fun r => ?_⟩
      rcases h2 r with h | ⟨b, k1, k2⟩
      · by_cases hr : r = path
        · subst hr; exact Or.inr ⟨c, Or.inl ⟨rfl, rfl⟩, h.trans (put_same _ _ _)⟩
        · exact Or.inl (h.trans (put_other _ _ hr))
      · exact Or.inr ⟨b, Or.inr k1, k2⟩

theorem SameBuilds.cases {α : Type} {f : Profile → Except Panic α} (h : SameBuilds f) : (∃ e, f .debug = .error e) ∨ ∃ a, f .debug = .ok a ∧ f .release = .ok a := by
  unfold SameBuilds at h
  cases hd : f .debug with
  | error e => exact Or.inl ⟨e, rfl⟩
  | ok a =>
    rcases h with h | h
    · exact Or.inr ⟨a, rfl, h.symm.trans hd⟩
    · rw [hd] at h; cases h

theorem compressProg_cut {κ : Type} {env : Env} {a : RunArgs} {out : κ} {d : List F64} {f g : Ended → Prog κ} (h : ∀ e, Prog.Cut (f e) (g e))
    (hp : f .panicked = .done 101) : Prog.Cut (compressProg { env with p := .debug } a out d f) (compressProg { env with p := .release } a out d g) := by
  unfold compressProg
  dsimp only
  rcases (compressData_builds env.E d a.comp).cases with ⟨e, k⟩ | ⟨bs, k1, k2⟩
  · rw [k]; dsimp only; rw [hp]; exact .panic _
  · rw [k1, k2]; exact .write (h _)

theorem fileProg_cut {κ : Type} {env : Env} {a : RunArgs} {path out : κ} {f g : Ended → Prog κ} (h : ∀ e, Prog.Cut (f e) (g e))
    (hp : f .panicked = .done 101) : Prog.Cut (fileProg { env with p := .debug } a path out f) (fileProg { env with p := .release } a path out g) := by
  unfold fileProg
  split_ifs with hu hc
  · refine .read fun o => ?_
    cases o with
    | none => exact h _
    | some c =>
      dsimp only
      split_ifs
      · exact h _
      · refine .read fun o => ?_
        cases o with
        | none => exact h _
        | some c =>
          dsimp only
          cases decompressData env.E c with
          | error e => exact h _
          | ok d =>
            dsimp only
            cases WavBrro.toFileWithData d with
            | error e => exact h _
            | ok f => exact .write (h _)
      · exact h _
  · refine .read fun o => ?_
    cases o with
    | none => exact h _
    | some c =>
      dsimp only
      have hr : readCsv { env with p := .debug } a c = readCsv { env with p := .release } a c := rfl
      rw [hr]
      cases readCsv { env with p := .release } a c with
      | error e => exact h _
      | ok r =>
        cases r with
        | error e => exact h _
        | ok d => exact compressProg_cut h hp
  · refine .read fun o => ?_
    cases o with
    | none => exact h _
    | some c =>
      dsimp only
      split_ifs
      · exact h _
      · refine .read fun o => ?_
        cases o with
        | none => exact h _
        | some c =>
          dsimp only
          cases WavBrro.fromBytes env.addr c with
          | error e => exact h _
          | ok w => exact compressProg_cut h hp
      · exact h _

theorem dirProg_cut {κ : Type} {env : Env} {a : RunArgs} {out : κ → κ} : ∀ l : List (κ × Bool),
    Prog.Cut (dirProg { env with p := .debug } a out l) (dirProg { env with p := .release } a out l)
  | [] => .done 0
  | (p, false) :: l => by
    rw [dirProg, dirProg, if_neg (by decide), if_neg (by decide)]
    exact dirProg_cut l
  | (p, true) :: l => by
    rw [dirProg, dirProg, if_pos rfl, if_pos rfl]
    refine fileProg_cut (fun e => ?_) rfl
    cases e with
    | ok => exact dirProg_cut l
    | panicked => exact .done _
    | err =>
      refine fileProg_cut (fun e => ?_) rfl
      cases e with
      | ok => exact dirProg_cut l
      | panicked => exact .done _
      | err => exact .done _

theorem csvProg_cut {κ : Type} (env : CsvEnv) (a : CsvArgs) (ext : κ → String → κ) (input base : κ) :
    Prog.Cut (csvProg { env with p := .debug } a ext input base) (csvProg { env with p := .release } a ext input base) := by
  unfold csvProg
  split_ifs
  · unfold csvProgUncompress
    refine .read fun o => ?_
    cases o with
    | none => exact .done _
    | some c =>
      dsimp only
      split_ifs
      · exact .done _
      · refine .read fun o => ?_
        cases o with
        | none => exact .done _
        | some c =>
          dsimp only
          cases decompressData env.E c with
          | error e => exact .done _
          | ok d =>
            dsimp only
            rcases (addAll_builds d .new).cases with ⟨e, k⟩ | ⟨w, k1, k2⟩
            · rw [k]; exact .panic _
            · rw [k1, k2]
              refine .read fun o => ?_
              cases o with
              | none => exact .done _
              | some c =>
                dsimp only
                cases Vsri.loadOrPanic c with
                | error e => exact .done _
                | ok v =>
                  dsimp only
                  cases WavBrro.toFileWithData d with
                  | error e => exact .done _
                  | ok f =>
                    refine .write ?_
                    rcases SameBuilds.cases (f := fun p => Metric.getSamples p ⟨w, v⟩) (stamp_builds _ _ _) with ⟨e, k⟩ | ⟨w, k1, k2⟩
                    · rw [k]; exact .panic _
                    · rw [k1, k2]; exact .refl _
      · exact .done _
  · unfold csvProgCompress
    refine .read fun o => ?_
    cases o with
    | none => exact .done _
    | some c =>
      dsimp only
      cases env.readCsv c with
      | none => exact .done _
      | some ss =>
        dsimp only
        have bro : ∀ m, Prog.Cut (csvProgBro { env with p := .debug } a ext base m) (csvProgBro { env with p := .release } a ext base m) := by
          intro m
          unfold csvProgBro
          split_ifs
          · exact .done _
          · rcases (compressData_builds env.E m.wbro.getSamples a.comp).cases with ⟨e, k⟩ | ⟨w, k1, k2⟩
            · dsimp only at k ⊢; rw [k]; exact .panic _
            · dsimp only at k1 k2 ⊢; rw [k1, k2]; exact .refl _
        have vsri : ∀ m, Prog.Cut (csvProgVsri { env with p := .debug } a ext base m) (csvProgVsri { env with p := .release } a ext base m) := by
          intro m
          unfold csvProgVsri
          split_ifs
          · exact .write (bro m)
          · exact bro m
        rcases (fromSamples_builds env.valid ss).cases with ⟨e, k⟩ | ⟨r, k1, k2⟩
        · rw [k]; exact .panic _
        · rw [k1, k2]
          cases r with
          | error e => exact .done _
          | ok m =>
            dsimp only
            split_ifs
            · cases m.wbro.toFile with
              | error e => exact .done _
              | ok f => exact .write (vsri m)
            · exact vsri m

theorem wavProg_cut (hound : Bytes → Option (Nat × List (Option Int))) (name : List Char) (v : Bool) :
    Prog.Cut (wavProg hound .debug name v) (wavProg hound .release name v) := by
  unfold wavProg
  refine .read fun o => ?_
  cases o with
  | none => exact .done _
  | some h =>
    dsimp only
    cases Wav.isWav h with
    | error e => exact .done _
    | ok b =>
      cases b with
      | false => exact .done _
      | true =>
        refine .read fun o => ?_
        cases o with
        | none => exact .done _
        | some c =>
          dsimp only
          cases Wav.readWav hound c with
          | error e => exact .done _
          | ok data =>
            dsimp only
            rcases (addAll_builds (data.filter fun x => !x.isNaN) .new).cases with ⟨e, k⟩ | ⟨w, k1, k2⟩
            · rw [k]; exact .panic _
            · rw [k1, k2]; exact .refl _

theorem Command.cut (c : Command) : Prog.Cut (c.build .debug).prog (c.build .release).prog := by
  cases c with
  | atsc env node ts =>
    unfold Command.build Command.prog
    dsimp only
    cases atscParse ts with
    | error s => exact .done _
    | ok a =>
      dsimp only
      unfold atscProg
      cases node a.input with
      | missing => exact .done _
      | other => exact .done _
      | file => exact fileProg_cut (fun e => .done _) rfl
      | dir names => exact dirProg_cut _
  | csv env isFile ts =>
    unfold Command.build Command.prog
    dsimp only
    cases csvCmd.run none false [] ts with
    | error s => exact .done _
    | ok seen =>
      dsimp only
      cases csvBuild FPath.ofPath seen with
      | error s => exact .done _
      | ok r =>
        dsimp only
        split_ifs
        · exact csvProg_cut _ _ _ _ _
        · exact .done _
  | wav hound p ts =>
    unfold Command.build Command.prog
    dsimp only
    cases wavCmd.run none false [] ts with
    | error s => exact .done _
    | ok seen =>
      dsimp only
      cases seen.value .input with
      | none => exact .done _
      | some name => exact wavProg_cut _ _ _

/-- **C119, the programs.** Whatever the command line and the files, the debug and the release build of atsc, csv-compressor and wav2wbro leave the same files and the
same exit status, or the debug build panics (status 101); then every file is as it was or holds something that the release build stores in it. -/
theorem C119_programs (c : Command) (d : Disk) : (c.build .debug).prog.alone d = (c.build .release).prog.alone d ∨
    (((c.build .debug).prog.alone d).2 = 101 ∧
      ∀ r, ((c.build .debug).prog.alone d).1 r = d r ∨ ∃ b, (c.build .release).prog.Stores d r b ∧ ((c.build .debug).prog.alone d).1 r = some b) := c.cut.alone d

/-! ### Examples -/

/-- An index of a huge step, for three samples. -/
def wideIndex : Vsri := ⟨0, 100, [⟨2147483647, 0, 0, 5⟩]⟩

/-- The two builds differ on it: `get_time(2)` is past the range. -/
example : wideIndex.getTime .debug 2 = .error .overflow ∧ wideIndex.getTime .release 2 = .ok (some (-2)) ∧
    wideIndex.getTime .debug 1 = .ok (some 2147483647) ∧ wideIndex.getTime .release 1 = .ok (some 2147483647) := by decide

/-- 256 chunks: the debug build panics, the release build does not. -/
example : Stream.new.runOps Ext.dummy .debug (List.replicate 256 (.plain [F64.lit 1])) = .error .overflow ∧
    ∃ s, Stream.new.runOps Ext.dummy .release (List.replicate 256 (.plain [F64.lit 1])) = .ok s := by
  obtain ⟨s, hs, -⟩ := C05_refuted
  refine ⟨?_, s, hs⟩
  rcases (C119_compress Ext.dummy Stream.new (List.replicate 256 (.plain [F64.lit 1])) [] ⟨.auto, 0, 0⟩).1 with h | h
  · exact absurd (h.trans hs) (C05_debug_overflow Ext.dummy _ (by rw [List.length_replicate]; decide) s)
  · exact h

example : (frameSizes 33423361).length = 256 ∧ (frameSizes 33423360).length = 255 := by decide +kernel

/-- A compressed file of three samples with the index above beside it. -/
def wideDisk : Disk := fun q =>
  if q = "c.bro".toList then (compressData Ext.dummy .debug [F64.lit 1, F64.lit 2, F64.lit 3] ⟨.noop, 0, 0⟩).toOption
  else if q = "c.vsri".toList then some (textBytes wideIndex.flush) else none

/-- csv-compressor -u on it: the debug build panics after the `.wbro` file, the release build writes wrong times. -/
example : ((Command.csv demoCsvEnv (fun _ => true) [['-', 'u'], "c.bro".toList]).build .debug).prog.alone wideDisk ≠
      ((Command.csv demoCsvEnv (fun _ => true) [['-', 'u'], "c.bro".toList]).build .release).prog.alone wideDisk := by
  have h : (((Command.csv demoCsvEnv (fun _ => true) [['-', 'u'], "c.bro".toList]).build .debug).prog.alone wideDisk).2 = 101 ∧
      (((Command.csv demoCsvEnv (fun _ => true) [['-', 'u'], "c.bro".toList]).build .release).prog.alone wideDisk).2 = 0 := by decide +kernel
  intro e
  have := congrArg Prod.snd e
  rw [h.1, h.2] at this
  exact absurd this (by decide)

/-- atsc on a file of one sample: the same in both builds, and it ends well. -/
example : ((progAtsc "y.wbro").build .debug).prog.alone progDisk = ((progAtsc "y.wbro").build .release).prog.alone progDisk ∧
    (((progAtsc "y.wbro").build .debug).prog.alone progDisk).2 = 0 := by
  have h : (((progAtsc "y.wbro").build .debug).prog.alone progDisk).2 = 0 := by decide +kernel
  refine ⟨(C119_programs (progAtsc "y.wbro") progDisk).resolve_right (fun k => ?_), h⟩
  rw [h] at k
  exact absurd k.1 (by decide)

end Atsc
