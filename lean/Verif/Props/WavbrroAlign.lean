import Verif.Props.Wavbrro
/- C39: which addresses of the reader's buffer work. -/
namespace Atsc
open WavBrro

theorem checkVec_some {bs : Bytes} {addr pos lo hi size align t n : Nat} (h : checkVec bs addr pos lo hi size align = some (t, n)) :
    t = ((pos : Int) + i32At bs pos).toNat ∧ n = u32At bs (pos + 4) ∧ (addr + t) % align = 0 := by
  unfold checkVec at h
  dsimp only at h
  split at h
  · rename_i hc
    obtain ⟨rfl, rfl⟩ := Prod.mk.inj (Option.some.inj h)
    exact ⟨rfl, rfl, hc.2.2⟩
  · cases h

/-- What a successful read says about the address. -/
theorem fromBytes_addr {addr : Nat} {bs : Bytes} {w : WavBrro} (h : fromBytes addr bs = .ok w) :
    (addr + (bs.length - 16)) % 4 = 0 ∧ (w.chunks ≠ [] →
      (addr + ((((bs.length - 16 : Nat) : Int) + i32At bs (bs.length - 16)).toNat + i32At bs (((bs.length - 16 : Nat) : Int) + i32At bs (bs.length - 16)).toNat : Int).toNat) % 8 = 0) ∧
      (w.chunks = [] ↔ u32At bs (bs.length - 16 + 4) = 0) := by
  unfold fromBytes at h
  split at h
  · cases h
  · dsimp only at h
    split at h
    · cases h
    · rename_i h4
      cases hc : checkVec bs addr (bs.length - 16) 0 (bs.length - 16) 8 4 with
      | none => rw [hc] at h; cases h
      | some q =>
        obtain ⟨t, n⟩ := q
        rw [hc] at h
        dsimp only at h
        obtain ⟨rfl, rfl, -⟩ := checkVec_some hc
        refine ⟨by omega, ?_⟩
        generalize hT : (((bs.length - 16 : Nat) : Int) + i32At bs (bs.length - 16)).toNat = T at h ⊢
        cases hn : u32At bs (bs.length - 16 + 4) with
        | zero =>
          rw [hn, readInner] at h
          have := Except.ok.inj h
          rw [← this]
          simp
        | succ n =>
          rw [hn, readInner] at h
          cases hv : checkVec bs addr T 0 T 8 8 with
          | none => rw [hv] at h; cases h
          | some q =>
            obtain ⟨t1, k⟩ := q
            rw [hv] at h
            dsimp only at h
            obtain ⟨rfl, rfl, h8⟩ := checkVec_some hv
            cases hr : readInner bs addr T n (T + 8) (((T : Int) + i32At bs T).toNat + 8 * u32At bs (T + 4)) with
            | none => rw [hr] at h; cases h
            | some cs =>
              rw [hr] at h
              have := Except.ok.inj h
              rw [← this]
              exact ⟨fun _ => h8, by simp⟩

/-- C39, exactly: a file the library wrote (up to 2^28 samples) is read back if and only if the reader's buffer starts at a multiple of 8 - of 4 for the
empty series; at any other address reading panics.  The code asks for no alignment: it reads into a `Vec<u8>`. -/
theorem C39_exact_alignment (d : List F64) (h : d.length ≤ 2 ^ 28) (f : Bytes) (hf : toFileWithData d = .ok f) (addr : Nat) :
    (fromFile addr f = .ok (.samples d) ↔ (if d = [] then 4 else 8) ∣ addr) ∧
    (¬ (if d = [] then 4 else 8) ∣ addr → ∃ e, fromFile addr f = .error e) := by
  obtain ⟨bs, hbs⟩ := toBytes_fits (d := d) (by omega)
  have hw : f = wholeFile bs := by
    unfold toFileWithData toFile at hf
    rw [hbs] at hf
    exact (Except.ok.inj hf).symm
  subst hw
  have hc : (fromSlice d).chunks = [] ↔ d = [] := by
    constructor
    · intro e
      by_contra hd
      exact chunksOf_ne (by decide) hd e
    · rintro rfl; rw [fromSlice_nil]; rfl
  have h0 : fromBytes 0 bs = .ok (fromSlice d) :=
    fromBytes_toBytes hbs (Nat.mod_lt _ (by decide)) (show 5 < 256 by decide)
      (fun c hcm => by have := (mem_chunksOf hcm).2; omega)
      (by
        have := chunks_count_le (cs := (fromSlice d).chunks) (fun c hcm => (mem_chunksOf hcm).1)
        have e : (fromSlice d).chunks.flatten = d := chunksOf_flatten (by decide) d
        rw [e] at this; omega) (by decide)
  have hne : bs ≠ [] := by rintro rfl; unfold fromBytes at h0; cases h0
  obtain ⟨a1, a2, a3⟩ := fromBytes_addr h0
  rw [fromFile_whole addr bs hne]
  -- reading at `addr` succeeds only at an aligned address
  have only : ∀ w, fromBytes addr bs = .ok w → (if d = [] then 4 else 8) ∣ addr := by
    intro w hw
    obtain ⟨b1, b2, b3⟩ := fromBytes_addr hw
    by_cases hd : d = []
    · rw [if_pos hd]; omega
    · rw [if_neg hd]
      have c1 := a2 (fun e => hd (hc.1 e))
      have c2 := b2 (fun e => hd (hc.1 (a3.2 (b3.1 e))))
      omega
  have yes : (if d = [] then 4 else 8) ∣ addr → fromBytes addr bs = .ok (fromSlice d) := by
    intro ha
    by_cases hd : d = []
    · rw [if_pos hd] at ha
      subst hd
      rw [fromSlice_nil] at hbs h0 ⊢
      obtain rfl : bs = [0, 0, 0, 0, 0, 0, 0, 0, 0, 0, 0, 0, 5, 0, 0, 0] := by
        have : (new : WavBrro).toBytes = .ok [0, 0, 0, 0, 0, 0, 0, 0, 0, 0, 0, 0, 5, 0, 0, 0] := by decide +kernel
        rw [hbs] at this; exact Except.ok.inj this
      obtain ⟨k, rfl⟩ := ha
      unfold fromBytes
      rw [if_neg (by decide)]
      dsimp only
      rw [if_neg (by simp)]
      have : checkVec [0, 0, 0, 0, 0, 0, 0, 0, 0, 0, 0, 0, 5, 0, 0, 0] (4 * k) 0 0 0 8 4 = some (0, 0) := by
        unfold checkVec
        dsimp only
        rw [if_pos]
        · rfl
        · refine ⟨by decide, by decide, ?_⟩
          have : ((0 : Nat) : Int) + i32At [0, 0, 0, 0, 0, 0, 0, 0, 0, 0, 0, 0, 5, 0, 0, 0] 0 = 0 := by decide
          rw [this]; simp
      show (match checkVec _ (4 * k) 0 0 0 8 4 with | none => _ | some (t, n) => _) = _
      rw [this]
      rfl
    · rw [if_neg hd] at ha
      exact fromBytes_toBytes hbs (Nat.mod_lt _ (by decide)) (show 5 < 256 by decide)
        (fun c hcm => by have := (mem_chunksOf hcm).2; omega)
        (by
          have := chunks_count_le (cs := (fromSlice d).chunks) (fun c hcm => (mem_chunksOf hcm).1)
          have e : (fromSlice d).chunks.flatten = d := chunksOf_flatten (by decide) d
          rw [e] at this; omega) (by omega)
  refine ⟨⟨fun hr => ?_, fun ha => ?_⟩, fun ha => ?_⟩
  · cases hb : fromBytes addr bs with
    | error e => rw [hb] at hr; cases hr
    | ok w => exact only w hb
  · rw [yes ha]
    show Except.ok (WbroRead.samples (fromSlice d).getSamples) = _
    have e : (fromSlice d).getSamples = d := chunksOf_flatten (by decide) d
    rw [e]
  · cases hb : fromBytes addr bs with
    | error e => exact ⟨e, rfl⟩
    | ok w => exact absurd (only w hb) ha

/-- C39: a buffer at a multiple of 4 never gives samples for a file whose size is not a multiple of 4, so a file cut at such a place is never taken for a
shorter series. -/
theorem C39_size (f : Bytes) (addr : Nat) (ha : 4 ∣ addr) (d : List F64) (h : fromFile addr f = .ok (.samples d)) : 4 ∣ f.length := by
  obtain ⟨h12, -⟩ := C39_accepts_only_marked addr f d h
  unfold fromFile at h
  rw [if_neg (by omega)] at h
  split at h
  · cases h
  · cases hb : fromBytes addr (f.drop 12) with
    | error e => rw [hb] at h; cases h
    | ok w =>
      have h16 : 16 ≤ (f.drop 12).length := by
        by_contra hc
        unfold fromBytes at hb
        rw [if_pos (by omega)] at hb
        cases hb
      have := (fromBytes_addr hb).1
      rw [List.length_drop] at this h16
      omega

example : okAnd (toFileWithData [FP.ofInt 1]) fun f => match fromFile 12 f with | .error _ => true | .ok _ => false := by decide +kernel

end Atsc
