import Verif.Model.VsriFile
import Mathlib.Tactic.SplitIfs
/- UTF-8: the decoder of the model accepts exactly the encodings of Lean's own `String.utf8EncodeChar`. -/
namespace Atsc

theorem u8_of {n : Nat} (h : n < 256) : (UInt8.ofNat n).toNat = n := by rw [UInt8.toNat_ofNat']; omega

theorem char_valid (c : Char) : c.toNat < 0xd800 ∨ (0xdfff < c.toNat ∧ c.toNat < 0x110000) := by
  have := c.valid
  unfold UInt32.isValidChar Nat.isValidChar at this
  exact this

theorem utf8_char (c : Char) (rest : Bytes) : utf8Dec (String.utf8EncodeChar c ++ rest) = (utf8Dec rest).map (c :: ·) := by
  have hv := char_valid c
  unfold String.utf8EncodeChar
  have e : c.val.toNat = c.toNat := rfl
  rw [e]
  have ec : ∀ n, n = c.toNat → Char.ofNat n = c := by rintro n rfl; exact Char.ofNat_toNat c
  generalize c.toNat = v at *
  dsimp only
  by_cases h1 : v ≤ 0x7f
  · rw [if_pos h1, List.singleton_append, utf8Dec.eq_def]
    dsimp only
    have u := u8_of (n := v) (by omega)
    rw [if_pos (by rw [UInt8.lt_iff_toNat_lt, u]; show v < 128; omega), u, ec v rfl]
  · rw [if_neg h1]
    by_cases h2 : v ≤ 0x7ff
    · rw [if_pos h2]
      simp only [List.cons_append, List.nil_append]
      rw [utf8Dec.eq_def]
      dsimp only
      have u := u8_of (n := v / 64 % 0x20 + 0xc0) (by omega)
      have w := u8_of (n := v % 0x40 + 0x80) (by omega)
      generalize UInt8.ofNat (v / 64 % 0x20 + 0xc0) = a at *
      generalize UInt8.ofNat (v % 0x40 + 0x80) = b at *
      rw [if_neg (by rw [UInt8.lt_iff_toNat_lt, u]; show ¬ _ < 128; omega), if_pos, ec]
      · omega
      · unfold utf8Cont
        simp only [UInt8.le_iff_toNat_le, u, w, decide_eq_true_eq]
        show 0xC2 ≤ _ ∧ _ ≤ 0xDF ∧ 0x80 ≤ _ ∧ _ ≤ 0xBF
        omega
    · rw [if_neg h2]
      by_cases h3 : v ≤ 0xffff
      · rw [if_pos h3]
        simp only [List.cons_append, List.nil_append]
        rw [utf8Dec.eq_def]
        dsimp only
        have u := u8_of (n := v / 4096 % 0x10 + 0xe0) (by omega)
        have w := u8_of (n := v / 64 % 0x40 + 0x80) (by omega)
        have x := u8_of (n := v % 0x40 + 0x80) (by omega)
        generalize UInt8.ofNat (v / 4096 % 0x10 + 0xe0) = a at *
        generalize UInt8.ofNat (v / 64 % 0x40 + 0x80) = b at *
        generalize UInt8.ofNat (v % 0x40 + 0x80) = d at *
        rw [if_neg (by rw [UInt8.lt_iff_toNat_lt, u]; show ¬ _ < 128; omega), if_neg, if_pos, ec]
        · omega
        · unfold utf8Cont
          simp only [UInt8.le_iff_toNat_le, ← UInt8.toNat_inj, u, w, x, decide_eq_true_eq]
          show 0xE0 ≤ _ ∧ _ ≤ 0xEF ∧ (0x80 ≤ _ ∧ _ ≤ 0xBF) ∧ (0x80 ≤ _ ∧ _ ≤ 0xBF) ∧ (_ = 0xE0 → 0xA0 ≤ _) ∧ (_ = 0xED → _ ≤ 0x9F)
          omega
        · simp only [UInt8.le_iff_toNat_le, u]
          show ¬ (_ ∧ _ ≤ 0xDF ∧ _)
          omega
      · rw [if_neg h3]
        simp only [List.cons_append, List.nil_append]
        rw [utf8Dec.eq_def]
        dsimp only
        have u := u8_of (n := v / 262144 % 0x08 + 0xf0) (by omega)
        have w := u8_of (n := v / 4096 % 0x40 + 0x80) (by omega)
        have x := u8_of (n := v / 64 % 0x40 + 0x80) (by omega)
        have y := u8_of (n := v % 0x40 + 0x80) (by omega)
        generalize UInt8.ofNat (v / 262144 % 0x08 + 0xf0) = a at *
        generalize UInt8.ofNat (v / 4096 % 0x40 + 0x80) = b at *
        generalize UInt8.ofNat (v / 64 % 0x40 + 0x80) = d at *
        generalize UInt8.ofNat (v % 0x40 + 0x80) = f at *
        rw [if_neg (by rw [UInt8.lt_iff_toNat_lt, u]; show ¬ _ < 128; omega), if_neg, if_neg, if_pos, ec]
        · omega
        · unfold utf8Cont
          simp only [UInt8.le_iff_toNat_le, ← UInt8.toNat_inj, u, w, x, y, decide_eq_true_eq]
          show 0xF0 ≤ _ ∧ _ ≤ 0xF4 ∧ (0x80 ≤ _ ∧ _ ≤ 0xBF) ∧ (0x80 ≤ _ ∧ _ ≤ 0xBF) ∧ (0x80 ≤ _ ∧ _ ≤ 0xBF) ∧ (_ = 0xF0 → 0x90 ≤ _) ∧ (_ = 0xF4 → _ ≤ 0x8F)
          omega
        · simp only [UInt8.le_iff_toNat_le, u]
          show ¬ (_ ∧ _ ≤ 0xEF ∧ _)
          omega
        · simp only [UInt8.le_iff_toNat_le, u]
          show ¬ (_ ∧ _ ≤ 0xDF ∧ _)
          omega

theorem utf8_text (cs : List Char) : utf8Dec (textBytes cs) = some cs := by
  induction cs with
  | nil => rfl
  | cons c cs ih => show utf8Dec (String.utf8EncodeChar c ++ textBytes cs) = _; rw [utf8_char, ih]; rfl

theorem char_of {n : Nat} (h : n < 0xd800 ∨ (0xdfff < n ∧ n < 0x110000)) : (Char.ofNat n).toNat = n := by
  have : n.isValidChar := h
  unfold Char.ofNat
  rw [dif_pos this]
  rfl

theorem u8_eq {n : Nat} {a : UInt8} (h : n = a.toNat) : UInt8.ofNat n = a := by
  rw [h]; exact UInt8.ofNat_toNat

theorem utf8_only : ∀ (bs : Bytes) (cs : List Char), utf8Dec bs = some cs → bs = textBytes cs := by
  intro bs
  have back : ∀ (l : Bytes) (n : Nat) (pre : Bytes) (cs : List Char), (∀ cs, utf8Dec l = some cs → l = textBytes cs) →
      (utf8Dec l).map (Char.ofNat n :: ·) = some cs → String.utf8EncodeChar (Char.ofNat n) = pre → pre ++ l = textBytes cs := by
    intro l n pre cs ih h hp
    cases hd : utf8Dec l with
    | none => rw [hd] at h; cases h
    | some r =>
      rw [hd] at h
      obtain rfl := Option.some.inj h
      rw [← hp, ih r hd]
      rfl
  fun_induction utf8Dec bs with
  | case1 => intro cs h; obtain rfl := Option.some.inj h; rfl
  | case2 a l h1 ih =>
    intro cs h
    rw [UInt8.lt_iff_toNat_lt] at h1
    have h1 : a.toNat < 128 := h1
    refine back l _ [a] cs ih h ?_
    unfold String.utf8EncodeChar
    rw [show (Char.ofNat a.toNat).val.toNat = a.toNat from char_of (by omega)]
    dsimp only
    rw [if_pos (by omega), u8_eq rfl]
  | case3 => intro cs h; cases h
  | case4 a h1 b l2 h2 ih =>
    intro cs h
    unfold utf8Cont at h2
    simp only [UInt8.le_iff_toNat_le, decide_eq_true_eq] at h2
    have h2 : 0xC2 ≤ a.toNat ∧ a.toNat ≤ 0xDF ∧ 0x80 ≤ b.toNat ∧ b.toNat ≤ 0xBF := h2
    refine back l2 _ [a, b] cs ih h ?_
    unfold String.utf8EncodeChar
    rw [show (Char.ofNat ((a.toNat - 0xC0) * 64 + (b.toNat - 0x80))).val.toNat = _ from char_of (by omega)]
    dsimp only
    rw [if_neg (by omega), if_pos (by omega), u8_eq (a := a) (by omega), u8_eq (a := b) (by omega)]
  | case5 => intro cs h; cases h
  | case6 a h1 b h2 c l3 h3 ih =>
    intro cs h
    unfold utf8Cont at h3
    simp only [UInt8.le_iff_toNat_le, ← UInt8.toNat_inj, decide_eq_true_eq] at h3
    have h3 : 0xE0 ≤ a.toNat ∧ a.toNat ≤ 0xEF ∧ (0x80 ≤ b.toNat ∧ b.toNat ≤ 0xBF) ∧ (0x80 ≤ c.toNat ∧ c.toNat ≤ 0xBF) ∧ (a.toNat = 0xE0 → 0xA0 ≤ b.toNat) ∧ (a.toNat = 0xED → b.toNat ≤ 0x9F) := h3
    refine back l3 _ [a, b, c] cs ih h ?_
    unfold String.utf8EncodeChar
    rw [show (Char.ofNat ((a.toNat - 0xE0) * 4096 + (b.toNat - 0x80) * 64 + (c.toNat - 0x80))).val.toNat = _ from char_of (by omega)]
    dsimp only
    rw [if_neg (by omega), if_neg (by omega), if_pos (by omega), u8_eq (a := a) (by omega), u8_eq (a := b) (by omega), u8_eq (a := c) (by omega)]
  | case7 => intro cs h; cases h
  | case8 a h1 b h2 c h3 d l4 h4 ih =>
    intro cs h
    unfold utf8Cont at h4
    simp only [UInt8.le_iff_toNat_le, ← UInt8.toNat_inj, decide_eq_true_eq] at h4
    have h4 : 0xF0 ≤ a.toNat ∧ a.toNat ≤ 0xF4 ∧ (0x80 ≤ b.toNat ∧ b.toNat ≤ 0xBF) ∧ (0x80 ≤ c.toNat ∧ c.toNat ≤ 0xBF) ∧ (0x80 ≤ d.toNat ∧ d.toNat ≤ 0xBF) ∧ (a.toNat = 0xF0 → 0x90 ≤ b.toNat) ∧ (a.toNat = 0xF4 → b.toNat ≤ 0x8F) := h4
    refine back l4 _ [a, b, c, d] cs ih h ?_
    unfold String.utf8EncodeChar
    rw [show (Char.ofNat ((a.toNat - 0xF0) * 262144 + (b.toNat - 0x80) * 4096 + (c.toNat - 0x80) * 64 + (d.toNat - 0x80))).val.toNat = _ from char_of (by omega)]
    dsimp only
    rw [if_neg (by omega), if_neg (by omega), if_neg (by omega), u8_eq (a := a) (by omega), u8_eq (a := b) (by omega), u8_eq (a := c) (by omega), u8_eq (a := d) (by omega)]
  | case9 => intro cs h; cases h

theorem utf8_iff (bs : Bytes) (cs : List Char) : utf8Dec bs = some cs ↔ bs = textBytes cs :=
  ⟨utf8_only bs cs, fun h => by rw [h, utf8_text]⟩

/-- A byte below 128 occurs only as the encoding of its ASCII character. -/
theorem enc_low {c : Char} {b : UInt8} (h : b ∈ String.utf8EncodeChar c) (hb : b.toNat < 128) : String.utf8EncodeChar c = [b] ∧ c.toNat = b.toNat := by
  have hv := char_valid c
  unfold String.utf8EncodeChar at h ⊢
  have e : c.val.toNat = c.toNat := rfl
  rw [e] at h ⊢
  generalize c.toNat = v at *
  dsimp only at h ⊢
  have u : ∀ n, n < 256 → b = UInt8.ofNat n → b.toNat = n := by rintro n hn rfl; exact u8_of hn
  split_ifs at h ⊢ with h1 h2 h3
  · have := u _ (by omega) (List.mem_singleton.1 h)
    exact ⟨by rw [u8_eq (a := b) (by omega)], by omega⟩
  · simp only [List.mem_cons, List.not_mem_nil, or_false] at h
    rcases h with h | h <;> have := u _ (by omega) h <;> omega
  · simp only [List.mem_cons, List.not_mem_nil, or_false] at h
    rcases h with h | h | h <;> have := u _ (by omega) h <;> omega
  · simp only [List.mem_cons, List.not_mem_nil, or_false] at h
    rcases h with h | h | h | h <;> have := u _ (by omega) h <;> omega

theorem enc_ascii {c : Char} (h : c.toNat < 128) : String.utf8EncodeChar c = [UInt8.ofNat c.toNat] := by
  unfold String.utf8EncodeChar
  dsimp only
  rw [if_pos (by show c.toNat ≤ _; omega)]
  rfl

theorem enc_ne_nil (c : Char) : String.utf8EncodeChar c ≠ [] := by
  unfold String.utf8EncodeChar
  dsimp only
  split_ifs <;> simp

theorem textBytes_append (a b : List Char) : textBytes (a ++ b) = textBytes a ++ textBytes b := by unfold textBytes; rw [List.flatMap_append]

theorem textBytes_cons (c : Char) (b : List Char) : textBytes (c :: b) = String.utf8EncodeChar c ++ textBytes b := by unfold textBytes; rw [List.flatMap_cons]

theorem textBytes_eq_nil {a : List Char} : textBytes a = [] ↔ a = [] := by
  cases a with
  | nil => simp [textBytes]
  | cons c l => rw [textBytes_cons]; simp [enc_ne_nil]

theorem textBytes_inj {a b : List Char} (h : textBytes a = textBytes b) : a = b := by
  have := utf8_text a
  rw [h, utf8_text] at this
  exact (Option.some.inj this).symm

end Atsc
