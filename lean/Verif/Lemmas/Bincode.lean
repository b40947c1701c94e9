import Verif.Model.Bincode
import Mathlib.Tactic.Ring
/- Round-trip and prefix-stability lemmas for the bincode model. -/
namespace Atsc

theorem leBytes_length (n x : Nat) : (leBytes n x).length = n := by
  induction n generalizing x with
  | zero => rfl
  | succ n ih => simp [leBytes, ih]

theorem ofLE_leBytes (n x : Nat) (h : x < 256 ^ n) : ofLE (leBytes n x) = x := by
  induction n generalizing x with
  | zero => simp at h; simp [leBytes, ofLE, h]
  | succ n ih =>
    have : x / 256 < 256 ^ n := by rw [Nat.div_lt_iff_lt_mul (by decide)]; rwa [pow_succ] at h
    simp [leBytes, ofLE, ih _ this]
    omega

theorem ofLE_lt (bs : Bytes) : ofLE bs < 256 ^ bs.length := by
  induction bs with
  | nil => simp [ofLE]
  | cons b bs ih =>
    have := b.toNat_lt
    simp only [ofLE, List.length_cons, pow_succ]
    omega

theorem leBytes_ofLE (bs : Bytes) : leBytes bs.length (ofLE bs) = bs := by
  induction bs with
  | nil => rfl
  | cons b bs ih =>
    have hb := b.toNat_lt
    simp only [List.length_cons, leBytes, ofLE]
    have h1 : (b.toNat + 256 * ofLE bs) % 256 = b.toNat := by omega
    have h2 : (b.toNat + 256 * ofLE bs) / 256 = ofLE bs := by omega
    rw [h1, h2, ih]
    simp

theorem takeBytes_append (x rest : Bytes) : takeBytes x.length (x ++ rest) = some (x, rest) := by
  simp [takeBytes]

theorem Dec.bind_eq {α β : Type} {d : Dec α} {f : α → Dec β} {bs r : Bytes} {a : α}
    (h : d bs = some (a, r)) : d.bind f bs = f a r := by simp [Dec.bind, h]

theorem Dec.map_eq {α β : Type} {d : Dec α} {f : α → β} {bs r : Bytes} {a : α}
    (h : d bs = some (a, r)) : d.map f bs = some (f a, r) := by simp [Dec.map, Dec.pure, Dec.bind, h]

theorem Dec.bind_some {α β : Type} {d : Dec α} {f : α → Dec β} {bs r : Bytes} {b : β}
    (h : d.bind f bs = some (b, r)) : ∃ a r', d bs = some (a, r') ∧ f a r' = some (b, r) := by
  unfold Dec.bind at h
  cases hd : d bs with
  | none => simp [hd] at h
  | some p => exact ⟨p.1, p.2, rfl, by simpa [hd] using h⟩

theorem decLE_leBytes (n x : Nat) (h : x < 256 ^ n) (rest : Bytes) :
    decLE n (leBytes n x ++ rest) = some (x, rest) := by
  have := takeBytes_append (leBytes n x) rest
  rw [leBytes_length] at this
  rw [decLE, Dec.map_eq this, ofLE_leBytes n x h]

/-- `dec` inverts `enc` on every value satisfying `P`, whatever follows. -/
def RT {α : Type} (P : α → Prop) (enc : α → Bytes) (dec : Dec α) : Prop :=
  ∀ a rest, P a → dec (enc a ++ rest) = some (a, rest)

/-- A successful decode never looks beyond what it consumed. -/
def Stable {α : Type} (dec : Dec α) : Prop :=
  ∀ bs a r ext, dec bs = some (a, r) → dec (bs ++ ext) = some (a, r ++ ext)

theorem rt_encVar_gen (maxTag : Nat) (bound : Nat) (h : bound = 2 ^ 16 ∧ maxTag = 251 ∨
    bound = 2 ^ 32 ∧ maxTag = 252 ∨ bound = 2 ^ 64 ∧ maxTag = 253) :
    RT (· < bound) encVar (decVar maxTag) := by
  intro x rest hx
  unfold encVar
  split_ifs with h1 h2 h3
  · have : (UInt8.ofNat x).toNat = x := by simp; omega
    simp [decVar, this, h1]
  · have := decLE_leBytes 2 x (by omega) rest
    have hm : ¬ maxTag < 251 := by omega
    simp [decVar, this, hm]
  · have := decLE_leBytes 4 x (by omega) rest
    have hm : ¬ maxTag < 252 := by omega
    simp [decVar, this, hm]
  · have := decLE_leBytes 8 x (by omega) rest
    have hm : ¬ maxTag < 253 := by omega
    simp [decVar, this, hm]

theorem rt_u16 : RT (· < 2 ^ 16) encVar decU16 := rt_encVar_gen _ _ (by simp)
theorem rt_u32 : RT (· < 2 ^ 32) encVar decU32 := rt_encVar_gen _ _ (by simp)
theorem rt_u64 : RT (· < 2 ^ 64) encVar decU64 := rt_encVar_gen _ _ (by simp)

theorem unzigzag_zigzag (i : Int) : unzigzag (zigzag i) = i := by
  unfold zigzag unzigzag; split_ifs <;> omega

theorem zigzag_lt (i : Int) (n : Nat) (h : -2 ^ n ≤ i ∧ i < 2 ^ n) : zigzag i < 2 ^ (n + 1) := by
  unfold zigzag
  have : ((2 ^ n : Nat) : Int) = 2 ^ n := by simp
  rw [pow_succ]
  split_ifs <;> omega

theorem rt_i16 : RT (fun i : Int => -2 ^ 15 ≤ i ∧ i < 2 ^ 15) encSigned (decSigned 251) := by
  intro i rest h
  have := rt_u16 (zigzag i) rest (zigzag_lt i 15 h)
  rw [decSigned, encSigned, Dec.map_eq (by exact this), unzigzag_zigzag]
theorem rt_i32 : RT (fun i : Int => -2 ^ 31 ≤ i ∧ i < 2 ^ 31) encSigned (decSigned 252) := by
  intro i rest h
  have := rt_u32 (zigzag i) rest (zigzag_lt i 31 h)
  rw [decSigned, encSigned, Dec.map_eq (by exact this), unzigzag_zigzag]
theorem rt_i64 : RT (fun i : Int => -2 ^ 63 ≤ i ∧ i < 2 ^ 63) encSigned (decSigned 253) := by
  intro i rest h
  have := rt_u64 (zigzag i) rest (zigzag_lt i 63 h)
  rw [decSigned, encSigned, Dec.map_eq (by exact this), unzigzag_zigzag]

theorem rt_u8 : RT (fun _ => True) encU8 decU8 := by intro b rest _; rfl

theorem FP.toBits_lt {mb eb : Nat} (x : FP mb eb) : x.toBits < 2 ^ (mb + eb + 1) := by
  unfold FP.toBits
  have := x.mag.isLt
  rw [pow_succ]
  split_ifs <;> omega

theorem FP.ofBits_toBits {mb eb : Nat} (x : FP mb eb) : (FP.ofBits x.toBits : FP mb eb) = x := by
  obtain ⟨s, ⟨m, hm⟩⟩ := x
  have hp : 0 < 2 ^ (mb + eb) := Nat.two_pow_pos _
  unfold FP.ofBits FP.toBits
  cases s
  · simp [Nat.mod_eq_of_lt hm, Nat.div_eq_of_lt hm]
  · have h1 : (2 ^ (mb + eb) + m) / 2 ^ (mb + eb) = 1 := by
      apply Nat.div_eq_of_lt_le <;> omega
    have h2 : (2 ^ (mb + eb) + m) % 2 ^ (mb + eb) = m := by
      rw [Nat.add_mod_left, Nat.mod_eq_of_lt hm]
    simp [h1, h2]

theorem FP.toBits_injective {mb eb : Nat} {x y : FP mb eb} (h : x.toBits = y.toBits) : x = y := by
  rw [← FP.ofBits_toBits x, h, FP.ofBits_toBits]

theorem rt_f64 : RT (fun _ => True) encF64 decF64 := by
  intro x rest _
  have := decLE_leBytes 8 x.toBits (by have := x.toBits_lt; simpa using this) rest
  rw [decF64, encF64, Dec.map_eq this, FP.ofBits_toBits]
theorem rt_f32 : RT (fun _ => True) encF32 decF32 := by
  intro x rest _
  have := decLE_leBytes 4 x.toBits (by have := x.toBits_lt; simpa using this) rest
  rw [decF32, encF32, Dec.map_eq this, FP.ofBits_toBits]

theorem decN_enc {α : Type} {P : α → Prop} {e : α → Bytes} {d : Dec α} (h : RT P e d) (xs : List α)
    (hP : ∀ x ∈ xs, P x) (rest : Bytes) :
    decN d xs.length ((xs.map e).flatten ++ rest) = some (xs, rest) := by
  induction xs with
  | nil => rfl
  | cons x xs ih =>
    have := h x ((xs.map e).flatten ++ rest) (hP x (by simp))
    simp only [List.map_cons, List.flatten_cons, List.append_assoc, List.length_cons, decN]
    rw [Dec.bind_eq this, Dec.bind_eq (ih fun y hy => hP y (by simp [hy]))]
    rfl

theorem rt_vec {α : Type} {P : α → Prop} {e : α → Bytes} {d : Dec α} (h : RT P e d) :
    RT (fun xs : List α => xs.length < 2 ^ 64 ∧ ∀ x ∈ xs, P x) (encVec e) (decVec d) := by
  intro xs rest ⟨hl, hP⟩
  have := rt_u64 xs.length ((xs.map e).flatten ++ rest) hl
  rw [encVec, decVec, List.append_assoc, Dec.bind_eq this, decN_enc h xs hP rest]

/-- `dec` reads what `enc` wrote, giving back `f a`. -/
def RTM {α β : Type} (P : α → Prop) (enc : α → Bytes) (dec : Dec β) (f : α → β) : Prop :=
  ∀ a rest, P a → dec (enc a ++ rest) = some (f a, rest)

theorem RT.toRTM {α : Type} {P : α → Prop} {e : α → Bytes} {d : Dec α} (h : RT P e d) : RTM P e d id := h

theorem decN_encM {α β : Type} {P : α → Prop} {e : α → Bytes} {d : Dec β} {f : α → β} (h : RTM P e d f)
    (xs : List α) (hP : ∀ x ∈ xs, P x) (rest : Bytes) :
    decN d xs.length ((xs.map e).flatten ++ rest) = some (xs.map f, rest) := by
  induction xs with
  | nil => rfl
  | cons x xs ih =>
    have := h x ((xs.map e).flatten ++ rest) (hP x (by simp))
    simp only [List.map_cons, List.flatten_cons, List.append_assoc, List.length_cons, decN]
    rw [Dec.bind_eq this, Dec.bind_eq (ih fun y hy => hP y (by simp [hy]))]
    rfl

theorem rtm_vec {α β : Type} {P : α → Prop} {e : α → Bytes} {d : Dec β} {f : α → β} (h : RTM P e d f) :
    RTM (fun xs : List α => xs.length < 2 ^ 64 ∧ ∀ x ∈ xs, P x) (encVec e) (decVec d) (List.map f) := by
  intro xs rest ⟨hl, hP⟩
  have := rt_u64 xs.length ((xs.map e).flatten ++ rest) hl
  rw [encVec, decVec, List.append_assoc, Dec.bind_eq this, decN_encM h xs hP rest]

/-! ### Stability -/

theorem stable_takeBytes (n : Nat) : Stable (takeBytes n) := by
  intro bs a r ext h
  unfold takeBytes at *
  split_ifs at h with hn
  · injection h with h; injection h with h1 h2
    subst h1 h2
    simp [List.take_append_of_le_length hn, List.drop_append_of_le_length hn]
    omega

theorem stable_pure {α : Type} (a : α) : Stable (Dec.pure a) := by
  intro bs b r ext h
  simp [Dec.pure] at *
  exact ⟨h.1, by simp [h.2]⟩

theorem stable_fail {α : Type} : Stable (Dec.fail : Dec α) := by
  intro bs b r ext h
  simp [Dec.fail] at h

theorem Stable.bind {α β : Type} {d : Dec α} (h : Stable d) {f : α → Dec β} (hf : ∀ a, Stable (f a)) :
    Stable (d.bind f) := by
  intro bs b r ext he
  obtain ⟨a, r', h1, h2⟩ := Dec.bind_some he
  rw [Dec.bind_eq (h _ _ _ ext h1)]
  exact hf a _ _ _ ext h2

theorem Stable.map {α β : Type} {d : Dec α} (h : Stable d) (f : α → β) : Stable (d.map f) :=
  h.bind fun _ => stable_pure _

theorem stable_decLE (n : Nat) : Stable (decLE n) := (stable_takeBytes n).map ofLE

theorem stable_decVar (m : Nat) : Stable (decVar m) := by
  intro bs a r ext h
  cases bs with
  | nil => simp [decVar] at h
  | cons b bs =>
    simp only [decVar, List.cons_append] at *
    split_ifs at h ⊢
    · simp at h ⊢; exact ⟨h.1, by simp [h.2]⟩
    · exact stable_decLE 2 _ _ _ ext h
    · exact stable_decLE 4 _ _ _ ext h
    · exact stable_decLE 8 _ _ _ ext h

theorem stable_decSigned (m : Nat) : Stable (decSigned m) := (stable_decVar m).map unzigzag

theorem stable_decU8 : Stable decU8 := by
  intro bs a r ext h
  cases bs with
  | nil => simp [decU8] at h
  | cons b bs => simp [decU8] at h ⊢; exact ⟨h.1, by simp [h.2]⟩

theorem stable_decF64 : Stable decF64 := (stable_decLE 8).map (FP.ofBits (mb := 52) (eb := 11))
theorem stable_decF32 : Stable decF32 := (stable_decLE 4).map (FP.ofBits (mb := 23) (eb := 8))

theorem stable_decN {α : Type} {d : Dec α} (h : Stable d) (n : Nat) : Stable (decN d n) := by
  induction n with
  | zero => exact stable_pure _
  | succ n ih => exact h.bind fun _ => ih.bind fun _ => stable_pure _

theorem stable_decVec {α : Type} {d : Dec α} (h : Stable d) : Stable (decVec d) :=
  Stable.bind (stable_decVar _) fun _ => stable_decN h _

/-- A stable decoder that inverts an encoder rejects every strict prefix of an encoding. -/
theorem Stable.reject_prefix {α : Type} {P : α → Prop} {e : α → Bytes} {d : Dec α}
    (hs : Stable d) (hrt : RT P e d) {a : α} (ha : P a) {pre suf : Bytes}
    (h : e a = pre ++ suf) (hne : suf ≠ []) : d pre = none := by
  cases hd : d pre with
  | none => rfl
  | some p =>
    obtain ⟨x, r⟩ := p
    have h1 := hs _ _ _ suf hd
    have h2 := hrt a [] ha
    rw [List.append_nil, h, h1] at h2
    simp at h2
    exact absurd h2.2.2 hne

end Atsc
