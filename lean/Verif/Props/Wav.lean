import Verif.Model.Wav
import Verif.Props.Wavbrro
import Verif.Lemmas.Float
/- C57: conversion of the legacy WAV files. -/
namespace Atsc
open Wav

/-- The four 16-bit words of an f64, lowest first, as the `i16` samples of a WAV file. -/
def wavWords (x : F64) : List Int :=
  let w (k : Nat) : Int := let u : Int := ((x.toBits / 65536 ^ k % 65536 : Nat) : Int); if u < 32768 then u else u - 65536
  [w 0, w 1, w 2, w 3]

theorem asU16_word (u : Nat) (h : u < 65536) : asU16 (if (u : Int) < 32768 then (u : Int) else (u : Int) - 65536) = u := by
  unfold asU16; split <;> omega

theorem or_shift {a b k : Nat} (h : a < 2 ^ k) : a ||| (b <<< k) = a + b * 2 ^ k := by
  rw [Nat.or_comm, Nat.shiftLeft_eq, Nat.mul_comm b, ← Nat.two_pow_add_eq_or_of_lt h, Nat.add_comm]

/-- **C57, words.** Joining the four words of any value gives back exactly that value (every bit, NaN payloads included). -/
theorem C57_join (x : F64) : (match wavWords x with
    | [a, b, c, d] => joinU16 (asU16 a) (asU16 b) (asU16 c) (asU16 d)
    | _ => FP.nan) = x := by
  have hb := x.toBits_lt
  have hb' : x.toBits < 18446744073709551616 := hb
  unfold wavWords
  simp only [pow_zero, Nat.div_one, pow_one]
  rw [asU16_word _ (Nat.mod_lt _ (by decide)), asU16_word _ (Nat.mod_lt _ (by decide)), asU16_word _ (Nat.mod_lt _ (by decide)),
    asU16_word _ (Nat.mod_lt _ (by decide))]
  unfold joinU16
  rw [or_shift (k := 16) (by omega), or_shift (k := 32) (by omega), or_shift (k := 48) (by omega)]
  have : x.toBits % 65536 + x.toBits / 65536 % 65536 * 2 ^ 16 + x.toBits / 65536 ^ 2 % 65536 * 2 ^ 32 + x.toBits / 65536 ^ 3 % 65536 * 2 ^ 48 = x.toBits := by
    omega
  rw [this, FP.ofBits_toBits]

theorem readLoop_four (x : F64) (h : List Nat) (hl : h.length = 4) (acc : List F64) (rest : List (Option Int)) :
    ∃ h', h'.length = 4 ∧ readLoop 4 h 0 acc ((wavWords x).map some ++ rest) = readLoop 4 h' 0 (acc ++ [x]) rest := by
  match h, hl with
  | [a, b, c, d], _ =>
    have hj := C57_join x
    obtain ⟨w0, w1, w2, w3, hw⟩ : ∃ w0 w1 w2 w3, wavWords x = [w0, w1, w2, w3] := ⟨_, _, _, _, rfl⟩
    rw [hw] at hj ⊢
    simp only at hj
    refine ⟨[asU16 w0, asU16 w1, asU16 w2, asU16 w3], rfl, ?_⟩
    conv_rhs => rw [← hj]
    rfl

/-- **C57, reading.** A four-channel WAV file made of the words of any sequence of values reads back as exactly that sequence; samples of an incomplete
last group are ignored. -/
theorem C57_read (ds : List F64) (extra : List Int) (hx : extra.length < 4) :
    readMetrics 4 ((ds.flatMap wavWords ++ extra).map some) = .ok ds := by
  have tail : ∀ (h : List Nat) (acc : List F64), h.length = 4 → readLoop 4 h 0 acc (extra.map some) = .ok acc := by
    intro h acc hl
    match extra, hx, h, hl with
    | [], _, _, _ => rfl
    | [_], _, [_, _, _, _], _ => rfl
    | [_, _], _, [_, _, _, _], _ => rfl
    | [_, _, _], _, [_, _, _, _], _ => rfl
  have key : ∀ (ds : List F64) (h : List Nat) (acc : List F64), h.length = 4 →
      readLoop 4 h 0 acc ((ds.flatMap wavWords ++ extra).map some) = .ok (acc ++ ds) := by
    intro ds
    induction ds with
    | nil => intro h acc hl; rw [List.flatMap_nil, List.nil_append, List.append_nil]; exact tail h acc hl
    | cons x ds ih =>
      intro h acc hl
      rw [List.flatMap_cons, List.append_assoc, List.map_append]
      obtain ⟨h', hl', he⟩ := readLoop_four x h hl acc ((ds.flatMap wavWords ++ extra).map some)
      rw [he, ih h' _ hl']; simp
  exact key ds [0, 0, 0, 0] [] rfl

/-- Every other file: with more than four channels reading panics as soon as a fifth sample is there. -/
theorem C57_too_many_channels (channels : Nat) (h : 4 < channels) (a b c d e : Int) (rest : List (Option Int)) :
    readMetrics channels (some a :: some b :: some c :: some d :: some e :: rest) = .error .index := by
  unfold readMetrics
  have h1 : ¬ 0 + 1 = channels := by omega
  have h2 : ¬ 0 + 1 + 1 = channels := by omega
  have h3 : ¬ 0 + 1 + 1 + 1 = channels := by omega
  have h4 : ¬ 0 + 1 + 1 + 1 + 1 = channels := by omega
  simp [readLoop]
  simp [show ¬ 1 = channels by omega, show ¬ 2 = channels by omega, show ¬ 3 = channels by omega, show ¬ 4 = channels by omega]

/-- **C57, conversion.** The file written for any data (up to 2^28 values kept) reads back as the data without its NaN values, in order. -/
theorem C57_convert (p : Profile) (data : List F64) (h : (data.filter fun x => !x.isNaN).length ≤ 2 ^ 28) (addr : Nat) (ha : 8 ∣ addr) :
    ∃ f, convert p data = .ok f ∧ WavBrro.fromFile addr f = .ok (.samples (data.filter fun x => !x.isNaN)) := by
  obtain ⟨w, hw⟩ := C37_total p (data.filter fun x => !x.isNaN) (.inr (by omega))
  obtain ⟨f, h1, h2⟩ := C39_round_trip_added p _ h w hw addr ha
  refine ⟨f, ?_, h2⟩
  unfold convert
  rw [hw]
  exact h1

theorem vecEq_length : ∀ {a b : List F64}, vecEq a b = true → a.length = b.length
  | [], [], _ => rfl
  | _ :: as, _ :: bs, h => by
    rw [vecEq, Bool.and_eq_true] at h
    rw [List.length_cons, List.length_cons, vecEq_length h.2]
  | [], _ :: _, h => by simp [vecEq] at h
  | _ :: _, [], h => by simp [vecEq] at h

theorem vecEq_self : ∀ {a : List F64}, (∀ x ∈ a, x.isNaN = false) → vecEq a a = true
  | [], _ => rfl
  | x :: a, h => by
    rw [vecEq, FP.feq_refl (h x (by simp)), vecEq_self (fun y hy => h y (by simp [hy]))]; rfl

/-- **C57, `--validate`.** The check passes exactly when the data has no NaN. -/
theorem C57_validate (data : List F64) : validate data (data.filter fun x => !x.isNaN) = .ok () ↔ ∀ x ∈ data, x.isNaN = false := by
  unfold validate
  constructor
  · intro h
    split at h
    · rename_i hv
      have := vecEq_length hv
      have hf := (List.length_filter_eq_length_iff (p := fun x : F64 => !x.isNaN) (l := data)).1 this.symm
      intro x hx
      have := hf x hx
      simpa using this
    · cases h
  · intro h
    have : data.filter (fun x => !x.isNaN) = data := List.filter_eq_self.2 (fun x hx => by simp [h x hx])
    rw [this, if_pos (vecEq_self h)]

example : readMetrics 4 (((([FP.ofInt 3, FP.nan] : List F64).flatMap wavWords ++ [5])).map some) = .ok [FP.ofInt 3, FP.nan] := C57_read _ _ (by decide)
example : okAnd (convert .debug [FP.ofInt 3, FP.nan, FP.ofInt (-4)]) (fun f => okAnd (WavBrro.fromFile 0 f) fun r =>
    decide (r = .samples [FP.ofInt 3, FP.ofInt (-4)])) = true := by decide +kernel

end Atsc
