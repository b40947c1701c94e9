import Verif.Lemmas.Bincode
/- C09: variable-length integers. -/
namespace Atsc

/-- Number of bytes of an unsigned integer on the wire. -/
def wireSize (x : Nat) : Nat := if x ≤ 250 then 1 else if x ≤ 65535 then 3 else if x ≤ 4294967295 then 5 else 9

/-- C09: every u64/usize is read back unchanged, whatever follows it. -/
theorem C09_u64_roundtrip (x : Nat) (hx : x < 2 ^ 64) (rest : Bytes) : decU64 (encVar x ++ rest) = some (x, rest) :=
  rt_u64 x rest hx
/-- C09: every u32 (enum variant) is read back unchanged. -/
theorem C09_u32_roundtrip (x : Nat) (hx : x < 2 ^ 32) (rest : Bytes) : decU32 (encVar x ++ rest) = some (x, rest) :=
  rt_u32 x rest hx
/-- C09: every u16 (frequency position) is read back unchanged. -/
theorem C09_u16_roundtrip (x : Nat) (hx : x < 2 ^ 16) (rest : Bytes) : decU16 (encVar x ++ rest) = some (x, rest) :=
  rt_u16 x rest hx
/-- C09: every i16 is read back unchanged. -/
theorem C09_i16_roundtrip (x : Int) (hx : -2 ^ 15 ≤ x ∧ x < 2 ^ 15) (rest : Bytes) :
    decSigned 251 (encSigned x ++ rest) = some (x, rest) := rt_i16 x rest hx
/-- C09: every i32 is read back unchanged. -/
theorem C09_i32_roundtrip (x : Int) (hx : -2 ^ 31 ≤ x ∧ x < 2 ^ 31) (rest : Bytes) :
    decSigned 252 (encSigned x ++ rest) = some (x, rest) := rt_i32 x rest hx
/-- C09: every i64 is read back unchanged. -/
theorem C09_i64_roundtrip (x : Int) (hx : -2 ^ 63 ≤ x ∧ x < 2 ^ 63) (rest : Bytes) :
    decSigned 253 (encSigned x ++ rest) = some (x, rest) := rt_i64 x rest hx

/-- C09: the encoded size depends on the magnitude only. -/
theorem C09_size (x : Nat) : (encVar x).length = wireSize x := by
  unfold encVar wireSize
  split_ifs <;> first | omega | simp [leBytes_length]

/-- C09: signed integers take the size of `2|x|` (`2|x| - 1` when negative). -/
theorem C09_signed_size (x : Int) : (encSigned x).length = wireSize (if 0 ≤ x then 2 * x.natAbs else 2 * x.natAbs - 1) := by
  rw [encSigned, C09_size]; rfl

/-- C09: a truncated integer is rejected. -/
theorem C09_truncated_rejected (x : Nat) (hx : x < 2 ^ 64) (k : Nat) (hk : k < (encVar x).length) :
    decU64 ((encVar x).take k) = none := by
  refine (stable_decVar 253).reject_prefix rt_u64 (a := x) hx (List.take_append_drop k _).symm ?_
  intro h
  have := congrArg List.length h
  rw [List.length_drop, List.length_nil] at this; omega

/-- C09: a truncated signed integer is rejected. -/
theorem C09_signed_truncated_rejected (x : Int) (hx : -2 ^ 63 ≤ x ∧ x < 2 ^ 63) (k : Nat) (hk : k < (encSigned x).length) :
    decSigned 253 ((encSigned x).take k) = none := by
  refine (stable_decSigned 253).reject_prefix rt_i64 (a := x) hx (List.take_append_drop k _).symm ?_
  intro h
  have := congrArg List.length h
  rw [List.length_drop, List.length_nil] at this; omega

example : encVar 250 = [250] ∧ encVar 251 = [251, 251, 0] ∧ encVar 65536 = [252, 0, 0, 1, 0] ∧
    encVar (2 ^ 32) = [253, 0, 0, 0, 0, 1, 0, 0, 0] ∧ encSigned (-3) = [5] ∧ encSigned 3 = [6] := by decide

theorem decLE_lt {k n : Nat} {bs rest : Bytes} (h : decLE k bs = some (n, rest)) : n < 256 ^ k ∧ rest.length + k = bs.length := by
  unfold decLE takeBytes Dec.map Dec.bind Dec.pure at h
  beta_reduce at h
  by_cases hk : k ≤ bs.length
  · rw [if_pos hk] at h
    simp only [Option.some.injEq, Prod.mk.injEq] at h
    obtain ⟨rfl, rfl⟩ := h
    have := ofLE_lt (bs.take k)
    rw [List.length_take, Nat.min_eq_left hk] at this
    exact ⟨this, by rw [List.length_drop]; omega⟩
  · rw [if_neg hk] at h; simp at h

theorem decVar_lt {m n : Nat} {bs rest : Bytes} (h : decVar m bs = some (n, rest)) :
    (n < 251 ∨ (251 ≤ m ∧ n < 2 ^ 16) ∨ (252 ≤ m ∧ n < 2 ^ 32) ∨ (253 ≤ m ∧ n < 2 ^ 64)) ∧ rest.length < bs.length := by
  unfold decVar at h
  cases bs with
  | nil => simp at h
  | cons b r =>
    dsimp only at h
    split_ifs at h with h1 h2 h3 h4 h5
    · simp only [Option.some.injEq, Prod.mk.injEq] at h
      obtain ⟨rfl, rfl⟩ := h
      exact ⟨.inl h1, by simp⟩
    · have := decLE_lt h; rw [List.length_cons]; exact ⟨.inr (.inl ⟨by omega, by omega⟩), by omega⟩
    · have := decLE_lt h; rw [List.length_cons]; exact ⟨.inr (.inr (.inl ⟨by omega, by omega⟩)), by omega⟩
    · have := decLE_lt h; rw [List.length_cons]; exact ⟨.inr (.inr (.inr ⟨by omega, by omega⟩)), by omega⟩

/-- C09 on untrusted bytes: whatever is read fits the width of the field, and something was consumed. -/
theorem C09_in_range (bs rest : Bytes) (n : Nat) :
    (decU16 bs = some (n, rest) → n < 2 ^ 16 ∧ rest.length < bs.length) ∧ (decU32 bs = some (n, rest) → n < 2 ^ 32 ∧ rest.length < bs.length) ∧
    (decU64 bs = some (n, rest) → n < 2 ^ 64 ∧ rest.length < bs.length) := by
  refine ⟨fun h => ?_, fun h => ?_, fun h => ?_⟩ <;>
  · obtain ⟨h1, h2⟩ := decVar_lt h
    exact ⟨by omega, h2⟩

/-- C09: a value too wide for its field is rejected, not cut to the width. -/
theorem C09_wide_rejected (x : Nat) (hx : x < 2 ^ 64) (rest : Bytes) :
    (2 ^ 16 ≤ x → decU16 (encVar x ++ rest) = none) ∧ (2 ^ 32 ≤ x → decU32 (encVar x ++ rest) = none) := by
  constructor <;> intro h <;> unfold encVar
  · rw [if_neg (by omega), if_neg (by omega)]
    split_ifs <;> rfl
  · rw [if_neg (by omega), if_neg (by omega), if_neg (by omega)]; rfl

example : decU16 [252, 5, 0, 0, 0] = none ∧ decU32 [252, 5, 0, 0, 0, 9] = some (5, [9]) ∧ decU64 [254, 0] = none := by decide

end Atsc
