import Verif.Spec.Stream
import Verif.Lemmas.Simple
/- Lemmas about frames and streams. -/
namespace Atsc

theorem bind_ok_iff {α β : Type} {x : Except Panic α} {f : α → Except Panic β} {b : β} :
    (x >>= f) = .ok b ↔ ∃ a, x = .ok a ∧ f a = .ok b := by
  cases x with
  | error e => simp [bind, Except.bind]
  | ok a => simp [bind, Except.bind]

theorem ok_bind {α β : Type} {a : α} {f : α → Except Panic β} : ((Except.ok a : Except Panic α) >>= f) = f a := rfl
theorem err_bind {α β : Type} {e : Panic} {f : α → Except Panic β} : ((Except.error e : Except Panic α) >>= f) = .error e := rfl

theorem rt_compressor : RT (fun _ => True) encCompressor decCompressor := by
  intro c rest _
  cases c <;> rfl

theorem stable_decCompressor : Stable decCompressor := by
  refine Stable.bind (stable_decVar _) fun n => ?_
  split <;> first | exact stable_pure _ | exact stable_fail

theorem stable_frame : Stable Frame.dec :=
  Stable.bind (stable_decVar _) fun _ => Stable.bind (stable_decVar _) fun _ => stable_decCompressor.bind fun _ =>
    (stable_decVec stable_decU8).bind fun _ => stable_pure _

/-- A frame whose numbers fit `u64`. -/
def Frame.Ok (f : Frame) : Prop := f.frameSize < 2 ^ 64 ∧ f.sampleCount < 2 ^ 64 ∧ f.data.length < 2 ^ 64

theorem rt_frame : RT Frame.Ok Frame.enc Frame.dec := by
  intro f rest ⟨h1, h2, h3⟩
  have hv := rt_vec rt_u8
  rw [Frame.enc, Frame.dec, List.append_assoc, List.append_assoc, List.append_assoc,
    Dec.bind_eq (rt_u64 _ _ h1), Dec.bind_eq (rt_u64 _ _ h2), Dec.bind_eq (rt_compressor _ _ trivial),
    Dec.bind_eq (hv _ _ ⟨h3, fun _ _ => trivial⟩)]
  rfl

theorem flatten_map_length_ge {α : Type} (e : α → Bytes) (xs : List α) {x : α} (hx : x ∈ xs) :
    (e x).length ≤ (xs.map e).flatten.length := by
  induction xs with
  | nil => simp at hx
  | cons y ys ih =>
    rcases List.mem_cons.1 hx with rfl | h
    · simp
    · have := ih h
      simp only [List.map_cons, List.flatten_cons, List.length_append]; omega

theorem flatten_map_length_count {α : Type} (e : α → Bytes) (xs : List α) (h : ∀ x ∈ xs, 1 ≤ (e x).length) :
    xs.length ≤ (xs.map e).flatten.length := by
  induction xs with
  | nil => simp
  | cons y ys ih =>
    have h1 := ih fun x hx => h x (by simp [hx])
    have h2 := h y (by simp)
    simp only [List.map_cons, List.flatten_cons, List.length_append, List.length_cons]; omega

theorem encVar_length_pos (x : Nat) : 1 ≤ (encVar x).length := by
  unfold encVar; split_ifs <;> simp [leBytes_length]

theorem encU8s_length (d : Bytes) : (d.map encU8).flatten.length = d.length := by
  induction d with
  | nil => rfl
  | cons b d ih => simp [encU8, ih]

theorem frame_enc_data_le (f : Frame) : f.data.length ≤ f.enc.length := by
  have := encU8s_length f.data
  simp only [Frame.enc, encVec, List.length_append]; omega

theorem frame_enc_pos (f : Frame) : 1 ≤ f.enc.length := by
  have := encVar_length_pos f.frameSize
  simp only [Frame.enc, List.length_append]; omega

theorem toBytes_length (s : Stream) :
    s.toBytes.length = 9 + ((encVar s.frames.length).length + (s.frames.map Frame.enc).flatten.length) := by
  simp [Stream.toBytes, Header.toBytes, brro, leBytes_length, encVec]; omega

theorem FitsMemory.frames {s : Stream} (h : FitsMemory s) :
    s.frames.length < 2 ^ 64 ∧ ∀ f ∈ s.frames, f.Ok := by
  obtain ⟨h1, h2⟩ := h
  rw [toBytes_length] at h1
  have := flatten_map_length_count Frame.enc s.frames fun x _ => frame_enc_pos x
  refine ⟨by omega, fun f hf => ⟨(h2 f hf).1, (h2 f hf).2, ?_⟩⟩
  have h3 := flatten_map_length_ge Frame.enc s.frames hf
  have h4 := frame_enc_data_le f
  omega

theorem header_fromBytes_toBytes (h : Header) (hv : h.version ≤ 1) : Header.fromBytes h.toBytes = .ok h := by
  obtain ⟨v, fc⟩ := h
  have e1 : (brro ++ leBytes 4 v.toNat ++ [fc]).take 4 = brro := by simp [brro]
  have e2 : (((brro ++ leBytes 4 v.toNat ++ [fc]).drop 4).take 4) = leBytes 4 v.toNat := by
    simp [brro, leBytes]
  have e3 : (brro ++ leBytes 4 v.toNat ++ [fc])[8]? = some fc := by simp [brro, leBytes]
  have e4 : UInt32.ofNat (ofLE (leBytes 4 v.toNat)) = v := by
    rw [ofLE_leBytes 4 _ (by have := v.toNat_lt; omega)]; simp
  have : ¬ currentVersion < v := by
    simp only [currentVersion] at *
    exact UInt32.not_lt.2 hv
  unfold Header.fromBytes Header.toBytes
  simp only [e1, e2, e3, e4]
  simp [this]

theorem header_toBytes_length (h : Header) : h.toBytes.length = 9 := by
  simp [Header.toBytes, brro, leBytes_length]

theorem fromBytes_eq (h : Header) (bs : Bytes) : Stream.fromBytes (h.toBytes ++ bs) =
    (do let h ← Header.fromBytes h.toBytes
        let fs ← unwrapDec (decVec Frame.dec) bs
        .ok { header := h, frames := fs }) := by
  have hl := header_toBytes_length h
  unfold Stream.fromBytes
  rw [if_neg (by simp [hl])]
  rw [← hl, List.take_left' rfl, List.drop_left' rfl]

theorem fromBytes_toBytes_append {s : Stream} (hf : FitsMemory s) (hv : s.header.version ≤ 1) (ext : Bytes) :
    Stream.fromBytes (s.toBytes ++ ext) = .ok s := by
  obtain ⟨h1, h2⟩ := hf.frames
  rw [Stream.toBytes, List.append_assoc, fromBytes_eq, header_fromBytes_toBytes _ hv, ok_bind]
  have := rt_vec rt_frame s.frames ext ⟨h1, h2⟩
  simp [unwrapDec, this, ok_bind]

/-- Every strict prefix of a serialised stream is rejected. -/
theorem fromBytes_prefix {s : Stream} (hf : FitsMemory s) {k : Nat} (hk : k < s.toBytes.length) :
    ∃ e, Stream.fromBytes (s.toBytes.take k) = .error e := by
  obtain ⟨h1, h2⟩ := hf.frames
  by_cases h9 : k < 9
  · refine ⟨.index, ?_⟩
    unfold Stream.fromBytes
    rw [if_pos (by rw [List.length_take]; omega)]
  · have hl := header_toBytes_length s.header
    obtain ⟨j, rfl⟩ : ∃ j, k = s.header.toBytes.length + j := ⟨k - 9, by omega⟩
    have e : s.toBytes.take (s.header.toBytes.length + j) = s.header.toBytes ++ (encVec Frame.enc s.frames).take j := by
      rw [Stream.toBytes, List.take_length_add_append]
    rw [e, fromBytes_eq]
    cases hh : Header.fromBytes s.header.toBytes with
    | error e => exact ⟨e, rfl⟩
    | ok h =>
      refine ⟨.unwrap, ?_⟩
      rw [ok_bind]
      have hlen : j < (encVec Frame.enc s.frames).length := by
        rw [Stream.toBytes, List.length_append] at hk; omega
      have := (stable_decVec stable_frame).reject_prefix (rt_vec rt_frame) (a := s.frames) ⟨h1, h2⟩
        (List.take_append_drop j _).symm (by
          intro h
          have := congrArg List.length h
          rw [List.length_drop, List.length_nil] at this; omega)
      simp [unwrapDec, this, err_bind]

/-! ### Built streams -/

theorem push_ok {p : Profile} {s s' : Stream} {f : Frame} (h : s.push p f = .ok s') :
    s'.frames = s.frames ++ [f.close] ∧ s'.header.version = s.header.version ∧
    s'.header.frameCount = s.header.frameCount + 1 ∧ ¬ (s.header.frameCount = 255 ∧ p = .debug) := by
  unfold Stream.push Header.addFrame at h
  split_ifs at h with hc
  · simp [bind, Except.bind] at h
  · rw [ok_bind] at h
    injection h with h
    subst h
    exact ⟨rfl, rfl, rfl, hc⟩

/-- The frame one call produces, before it is closed. -/
def ChunkOp.frame (E : Ext) : ChunkOp → Except Panic Frame
  | .plain d => (Frame.new none).compress E d
  | .using d c => (Frame.new (some c)).compress E d
  | .bounded d c e k =>
    match c with
    | .auto => (Frame.new (some c)).compressBest E d e k
    | _ => (Frame.new (some c)).compressBounded E d e

theorem apply_eq (E : Ext) (p : Profile) (s : Stream) (op : ChunkOp) :
    op.apply E p s = (op.frame E >>= fun f => s.push p f) := by
  cases op with
  | plain d => rfl
  | «using» d c => rfl
  | bounded d c e k => rfl

theorem frame_compress_count {E : Ext} {f g : Frame} {d : List F64} (h : f.compress E d = .ok g) :
    g.sampleCount = d.length := by
  unfold Frame.compress at h
  obtain ⟨a, _, h2⟩ := bind_ok_iff.1 h
  injection h2 with h2; subst h2; rfl

theorem frame_compressBounded_count {E : Ext} {f g : Frame} {d : List F64} {e : F32}
    (h : f.compressBounded E d e = .ok g) : g.sampleCount = d.length := by
  unfold Frame.compressBounded at h
  obtain ⟨a, _, h2⟩ := bind_ok_iff.1 h
  injection h2 with h2; subst h2; rfl

theorem frame_compressBest_count {E : Ext} {f g : Frame} {d : List F64} {e : F32} {k : Nat}
    (h : f.compressBest E d e k = .ok g) : g.sampleCount = d.length := by
  unfold Frame.compressBest at h
  split at h
  · simp at h
  · obtain ⟨st, _, h⟩ := bind_ok_iff.1 h
    split_ifs at h
    · obtain ⟨r, _, h⟩ := bind_ok_iff.1 h
      injection h with h; subst h; rfl
    · obtain ⟨r, _, h⟩ := bind_ok_iff.1 h
      obtain ⟨b, _, h⟩ := bind_ok_iff.1 h
      obtain ⟨c, _, h⟩ := bind_ok_iff.1 h
      injection h with h; subst h; rfl
    · obtain ⟨r, _, h⟩ := bind_ok_iff.1 h
      obtain ⟨b, _, h⟩ := bind_ok_iff.1 h
      injection h with h; subst h; rfl

theorem op_frame_count {E : Ext} {op : ChunkOp} {f : Frame} (h : op.frame E = .ok f) :
    f.sampleCount = op.chunk.length := by
  cases op with
  | plain d => exact frame_compress_count h
  | «using» d c => exact frame_compress_count h
  | bounded d c e k =>
    cases c <;> first | exact frame_compressBest_count h | exact frame_compressBounded_count h

theorem apply_ok {E : Ext} {p : Profile} {s s' : Stream} {op : ChunkOp} (h : op.apply E p s = .ok s') :
    ∃ f, op.frame E = .ok f ∧ s.push p f = .ok s' := by
  rw [apply_eq] at h; exact bind_ok_iff.1 h

theorem runOps_cons_ok {E : Ext} {p : Profile} {s t : Stream} {op : ChunkOp} {ops : List ChunkOp}
    (h : s.runOps E p (op :: ops) = .ok t) : ∃ s', op.apply E p s = .ok s' ∧ s'.runOps E p ops = .ok t := by
  unfold Stream.runOps at h
  cases ha : op.apply E p s with
  | error e => simp [ha] at h
  | ok s' => exact ⟨s', rfl, by simpa [ha] using h⟩

/-- What a run does to a stream. -/
theorem runOps_ok {E : Ext} {p : Profile} {ops : List ChunkOp} : ∀ {s t : Stream}, s.runOps E p ops = .ok t →
    t.header.version = s.header.version ∧
    t.header.frameCount.toNat = (s.header.frameCount.toNat + ops.length) % 256 ∧
    (p = .debug → s.header.frameCount.toNat + ops.length ≤ 255) ∧
    ∃ fs : List Frame, t.frames = s.frames ++ fs.map Frame.close ∧
      List.Forall₂ (fun op f => op.frame E = .ok f) ops fs := by
  induction ops with
  | nil =>
    intro s t h
    injection h with h; subst h
    have := s.header.frameCount.toNat_lt
    exact ⟨rfl, by simp, fun _ => by simp; omega, [], by simp, .nil⟩
  | cons op ops ih =>
    intro s t h
    obtain ⟨s', h1, h2⟩ := runOps_cons_ok h
    obtain ⟨f, hf, hp⟩ := apply_ok h1
    obtain ⟨p1, p2, p3, p4⟩ := push_ok hp
    obtain ⟨i1, i2, i3, fs, i4, i5⟩ := ih h2
    have hlt := s.header.frameCount.toNat_lt
    have hadd : s'.header.frameCount.toNat = (s.header.frameCount.toNat + 1) % 256 := by
      rw [p3]; simp [UInt8.toNat_add]
    refine ⟨by rw [i1, p2], ?_, ?_, f :: fs, ?_, .cons hf i5⟩
    · rw [i2, hadd, List.length_cons]; omega
    · intro hd
      have h3 := i3 hd
      have hne : s.header.frameCount.toNat ≠ 255 := fun hc => p4 ⟨UInt8.toNat.inj (by simpa using hc), hd⟩
      rw [hadd] at h3
      simp only [List.length_cons]; omega
    · rw [i4, p1]; simp

theorem built_ok {E : Ext} {p : Profile} {ops : List ChunkOp} {s : Stream} (h : Built E p ops s) :
    s.header.version = 1 ∧ s.header.frameCount.toNat = ops.length % 256 ∧ (p = .debug → ops.length ≤ 255) ∧
    ∃ fs : List Frame, s.frames = fs.map Frame.close ∧ List.Forall₂ (fun op f => op.frame E = .ok f) ops fs := by
  obtain ⟨h1, h2, h3, fs, h4, h5⟩ := runOps_ok h
  refine ⟨h1, by simpa [Stream.new, Header.new] using h2, fun hp => by simpa [Stream.new, Header.new] using h3 hp, fs, ?_, h5⟩
  simpa [Stream.new] using h4

theorem built_fits {E : Ext} {p : Profile} {ops : List ChunkOp} {s : Stream} (h : Built E p ops s)
    (hin : ∀ op ∈ ops, op.chunk.length < 2 ^ 64) (hout : s.toBytes.length < 2 ^ 64) : FitsMemory s := by
  obtain ⟨-, -, -, fs, h4, h5⟩ := built_ok h
  refine ⟨hout, fun f hf => ?_⟩
  rw [h4] at hf
  clear h4 h hout
  induction h5 with
  | nil => simp at hf
  | cons hop _ ih =>
    rw [List.map_cons, List.mem_cons] at hf
    rcases hf with rfl | hf
    · refine ⟨by simp [Frame.close], ?_⟩
      have := op_frame_count hop
      simp only [Frame.close, this]
      exact hin _ (by simp)
    · exact ih (fun op ho => hin op (by simp [ho])) hf

theorem decompress_close (E : Ext) (f : Frame) : f.close.decompress E = f.decompress E := rfl

theorem push_new (p : Profile) (f : Frame) :
    Stream.new.push p f = .ok { header := { version := 1, frameCount := 1 }, frames := [f.close] } := rfl

theorem alone_eq {E : Ext} {p : Profile} {op : ChunkOp} {f : Frame} (h : op.frame E = .ok f) :
    op.alone E p = f.decompress E := by
  unfold ChunkOp.alone
  rw [apply_eq, h, ok_bind, push_new]
  simp only [Stream.decompress, decompressAll, decompress_close]
  cases f.decompress E with
  | error e => rfl
  | ok a => simp [ok_bind]

theorem decompressAll_append (E : Ext) (a b : List Frame) : decompressAll E (a ++ b) =
    (do let x ← decompressAll E a
        let y ← decompressAll E b
        .ok (x ++ y)) := by
  induction a with
  | nil => simp only [List.nil_append, decompressAll, ok_bind]; cases decompressAll E b <;> rfl
  | cons f a ih =>
    simp only [List.cons_append, decompressAll, ih]
    cases f.decompress E with
    | error e => rfl
    | ok x =>
      cases decompressAll E a with
      | error e => rfl
      | ok y =>
        cases decompressAll E b with
        | error e => rfl
        | ok z => simp [ok_bind, List.append_assoc]

theorem decompress_built {E : Ext} {p : Profile} {ops : List ChunkOp} {s : Stream} (h : Built E p ops s) :
    s.decompress E = concatOk (ChunkOp.alone E p) ops := by
  obtain ⟨-, -, -, fs, h4, h5⟩ := built_ok h
  rw [Stream.decompress, h4]
  clear h4 h
  induction h5 with
  | nil => rfl
  | cons hop _ ih =>
    simp only [List.map_cons, decompressAll, concatOk, alone_eq hop, ih, decompress_close]
    cases Frame.decompress E _ with
    | error e => rfl
    | ok a =>
      simp only [ok_bind]
      cases concatOk (ChunkOp.alone E p) _ <;> rfl

end Atsc
