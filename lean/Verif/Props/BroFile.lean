import Verif.Spec.BroFile
import Verif.Props.Untrusted
import Verif.Props.Spectrum
import Verif.Model.Cli
/- C116: which files can be uncompressed, and what is in them. -/
namespace Atsc.Bro
open Atsc.FP

/-- A decoder reads exactly what a relation says. -/
def Reads {α : Type} (d : Dec α) (R : α → Bytes → Prop) : Prop := ∀ bs a r, d bs = some (a, r) ↔ ∃ pre, R a pre ∧ bs = pre ++ r

theorem reads_pure {α : Type} (a : α) : Reads (Dec.pure a) (fun x p => x = a ∧ p = []) := by
  intro bs x r
  unfold Dec.pure
  constructor
  · intro h; cases h; exact ⟨[], ⟨rfl, rfl⟩, rfl⟩
  · rintro ⟨p, ⟨rfl, rfl⟩, rfl⟩; rfl

theorem reads_fail {α : Type} : Reads (Dec.fail : Dec α) (fun _ _ => False) := by
  intro bs x r
  constructor
  · intro h; cases h
  · rintro ⟨p, h, -⟩; exact h.elim

theorem Reads.bind {α β : Type} {d : Dec α} {R : α → Bytes → Prop} (h : Reads d R) {f : α → Dec β} {S : α → β → Bytes → Prop} (hf : ∀ a, Reads (f a) (S a)) :
    Reads (d.bind f) (fun b p => ∃ a x y, R a x ∧ S a b y ∧ p = x ++ y) := by
  intro bs b r
  constructor
  · intro hb
    obtain ⟨a, r', h1, h2⟩ := Dec.bind_some hb
    obtain ⟨x, g1, rfl⟩ := (h _ _ _).1 h1
    obtain ⟨y, g2, rfl⟩ := (hf a _ _ _).1 h2
    exact ⟨x ++ y, ⟨a, x, y, g1, g2, rfl⟩, (List.append_assoc _ _ _).symm⟩
  · rintro ⟨p, ⟨a, x, y, g1, g2, rfl⟩, rfl⟩
    rw [List.append_assoc, Dec.bind_eq ((h _ _ _).2 ⟨x, g1, rfl⟩)]
    exact (hf a _ _ _).2 ⟨y, g2, rfl⟩

theorem Reads.congr {α : Type} {d : Dec α} {R S : α → Bytes → Prop} (h : Reads d R) (hs : ∀ a p, R a p ↔ S a p) : Reads d S := by
  intro bs a r
  rw [h bs a r]
  exact exists_congr fun p => and_congr_left fun _ => hs a p

theorem Reads.map {α β : Type} {d : Dec α} {R : α → Bytes → Prop} (h : Reads d R) (f : α → β) : Reads (d.map f) (fun b p => ∃ a, R a p ∧ b = f a) := by
  refine (Reads.bind h (fun a => reads_pure (f a))).congr (fun b p => ?_)
  constructor
  · rintro ⟨a, x, y, g1, ⟨g2, rfl⟩, rfl⟩; exact ⟨a, by rw [List.append_nil]; exact g1, g2⟩
  · rintro ⟨a, g1, g2⟩; exact ⟨a, p, [], g1, ⟨g2, rfl⟩, (List.append_nil _).symm⟩

theorem littleEndian_eq (ds : Bytes) : littleEndian ds = ofLE ds := by
  induction ds with
  | nil => rfl
  | cons b ds ih => rw [ofLE, ← ih]; rfl

theorem reads_LE (n : Nat) : Reads (decLE n) (fun x p => p.length = n ∧ x = littleEndian p) := by
  have h : Reads (takeBytes n) (fun x p => p.length = n ∧ x = p) := by
    intro bs x r
    unfold takeBytes
    constructor
    · intro h
      split_ifs at h with hn
      cases h
      exact ⟨bs.take n, ⟨by rw [List.length_take]; omega, rfl⟩, (List.take_append_drop _ _).symm⟩
    · rintro ⟨p, ⟨rfl, rfl⟩, rfl⟩
      exact takeBytes_append x r
  refine (h.map ofLE).congr (fun x p => ?_)
  rw [littleEndian_eq]
  constructor
  · rintro ⟨a, ⟨h1, rfl⟩, h2⟩; exact ⟨h1, h2⟩
  · rintro ⟨h1, h2⟩; exact ⟨p, ⟨h1, rfl⟩, h2⟩

theorem reads_var (w m : Nat) (hw : (w, m) ∈ [(2, 251), (4, 252), (8, 253)]) : Reads (decVar m) (Number w) := by
  intro bs n r
  have hwm : (w = 2 ∧ m = 251) ∨ (w = 4 ∧ m = 252) ∨ (w = 8 ∧ m = 253) := by simpa using hw
  cases bs with
  | nil =>
    constructor
    · intro h; cases h
    · rintro ⟨p, h, hp⟩
      cases h <;> cases hp
  | cons b t =>
    have wide : ∀ (mark : UInt8) (k : Nat), (mark, k) ∈ [((251 : UInt8), 2), (252, 4), (253, 8)] → k ≤ w → b = mark →
        (decLE k t = some (n, r) ↔ ∃ pre, Number w n pre ∧ b :: t = pre ++ r) := by
      intro mark k hk hle hb
      subst hb
      rw [reads_LE k t n r]
      constructor
      · rintro ⟨p, ⟨h1, rfl⟩, rfl⟩
        exact ⟨b :: p, .wide b k p hk hle h1, rfl⟩
      · rintro ⟨p, h, hp⟩
        cases h with
        | byte c hc =>
          injection hp with e1 e2
          subst e1
          simp only [List.mem_cons, Prod.mk.injEq, List.not_mem_nil, or_false] at hk
          rcases hk with ⟨h, -⟩ | ⟨h, -⟩ | ⟨h, -⟩ <;> (subst h; exact absurd hc (by decide))
        | wide c k' ds h1 h2 h3 =>
          injection hp with e1 e2
          subst e1
          have : k' = k := by
            simp only [List.mem_cons, Prod.mk.injEq, List.not_mem_nil, or_false] at hk h1
            rcases hk with ⟨h, x⟩ | ⟨h, x⟩ | ⟨h, x⟩ <;> rcases h1 with ⟨g, y⟩ | ⟨g, y⟩ | ⟨g, y⟩ <;>
              first | exact y.trans x.symm | (rw [h] at g; exact absurd g (by decide))
          subst this
          exact ⟨ds, ⟨h3, rfl⟩, e2⟩
    have none : 251 ≤ b.toNat → (∀ mark k, (mark, k) ∈ [((251 : UInt8), 2), (252, 4), (253, 8)] → k ≤ w → b ≠ mark) →
        (False ↔ ∃ pre, Number w n pre ∧ b :: t = pre ++ r) := by
      intro h1 h2
      refine ⟨False.elim, ?_⟩
      rintro ⟨p, h, hp⟩
      cases h with
      | byte c hc =>
        injection hp with e1 e2
        subst e1
        omega
      | wide c k ds g1 g2 g3 =>
        injection hp with e1 e2
        exact h2 c k g1 g2 e1
    have toN : ∀ k : UInt8, b = k ↔ b.toNat = k.toNat := fun k => ⟨fun h => by rw [h], fun h => UInt8.toNat_inj.mp h⟩
    unfold decVar
    dsimp only
    by_cases h0 : b.toNat < 251
    · rw [if_pos h0]
      constructor
      · intro h
        cases h
        exact ⟨[b], .byte b (by omega), rfl⟩
      · rintro ⟨p, h, hp⟩
        cases h with
        | byte c hc =>
          injection hp with e1 e2
          subst e1 e2
          rfl
        | wide c k ds g1 g2 g3 =>
          injection hp with e1 e2
          subst e1
          simp only [List.mem_cons, Prod.mk.injEq, List.not_mem_nil, or_false] at g1
          rcases g1 with ⟨h, -⟩ | ⟨h, -⟩ | ⟨h, -⟩ <;> (subst h; exact absurd h0 (by decide))
    · rw [if_neg h0]
      by_cases hm : m < b.toNat
      · rw [if_pos hm]
        have := none (by omega) (fun mark k hk hle hb => by
          rw [toN] at hb
          simp only [List.mem_cons, Prod.mk.injEq, List.not_mem_nil, or_false] at hk
          rcases hk with ⟨rfl, rfl⟩ | ⟨rfl, rfl⟩ | ⟨rfl, rfl⟩
          · rw [show (251 : UInt8).toNat = 251 from rfl] at hb; omega
          · rw [show (252 : UInt8).toNat = 252 from rfl] at hb; omega
          · rw [show (253 : UInt8).toNat = 253 from rfl] at hb; omega)
        rw [← this]
        simp
      · rw [if_neg hm]
        by_cases h1 : b.toNat = 251
        · rw [if_pos h1]
          exact wide 251 2 (by simp) (by omega) ((toN _).2 h1)
        · rw [if_neg h1]
          by_cases h2 : b.toNat = 252
          · rw [if_pos h2]
            exact wide 252 4 (by simp) (by omega) ((toN _).2 h2)
          · rw [if_neg h2]
            by_cases h3 : b.toNat = 253
            · rw [if_pos h3]
              exact wide 253 8 (by simp) (by omega) ((toN _).2 h3)
            · rw [if_neg h3]
              have := none (by omega) (fun mark k hk hle hb => by
                rw [toN] at hb
                simp only [List.mem_cons, Prod.mk.injEq, List.not_mem_nil, or_false] at hk
                rcases hk with ⟨rfl, rfl⟩ | ⟨rfl, rfl⟩ | ⟨rfl, rfl⟩
                · exact h1 hb
                · exact h2 hb
                · exact h3 hb)
              rw [← this]
              simp

theorem reads_signed (w m : Nat) (hw : (w, m) ∈ [(2, 251), (4, 252), (8, 253)]) : Reads (decSigned m) (Signed w) := by
  refine ((reads_var w m hw).map unzigzag).congr (fun i p => ?_)
  unfold Signed
  refine exists_congr fun n => and_congr_right fun _ => ?_
  unfold unzigzag
  constructor
  · rintro rfl
    by_cases h : n % 2 = 0
    · rw [if_pos h, if_pos (by omega)]; omega
    · rw [if_neg h, if_neg (by omega)]; omega
  · intro h
    by_cases hi : 0 ≤ i
    · rw [if_pos hi] at h
      rw [if_pos (by omega)]; omega
    · rw [if_neg hi] at h
      rw [if_neg (by omega)]; omega

theorem reads_double : Reads decF64 Double := by
  refine ((reads_LE 8).map FP.ofBits).congr (fun x p => ?_)
  unfold Double
  constructor
  · rintro ⟨n, ⟨h1, rfl⟩, h2⟩; exact ⟨h1, h2⟩
  · rintro ⟨h1, h2⟩; exact ⟨_, ⟨h1, rfl⟩, h2⟩

theorem reads_single : Reads decF32 Single := by
  refine ((reads_LE 4).map FP.ofBits).congr (fun x p => ?_)
  unfold Single
  constructor
  · rintro ⟨n, ⟨h1, rfl⟩, h2⟩; exact ⟨h1, h2⟩
  · rintro ⟨h1, h2⟩; exact ⟨_, ⟨h1, rfl⟩, h2⟩

theorem reads_u8 : Reads decU8 (fun b p => p = [b]) := by
  intro bs b r
  cases bs with
  | nil =>
    constructor
    · intro h; cases h
    · rintro ⟨p, rfl, h⟩; cases h
  | cons c t =>
    constructor
    · intro h; cases h; exact ⟨_, rfl, rfl⟩
    · rintro ⟨p, rfl, h⟩; cases h; rfl

theorem reads_N {α : Type} {d : Dec α} {R : α → Bytes → Prop} (h : Reads d R) (n : Nat) :
    Reads (decN d n) (fun xs p => xs.length = n ∧ ∃ parts, List.Forall₂ R xs parts ∧ p = parts.flatten) := by
  induction n with
  | zero =>
    refine (reads_pure ([] : List α)).congr (fun xs p => ?_)
    constructor
    · rintro ⟨rfl, rfl⟩; exact ⟨rfl, [], .nil, rfl⟩
    · rintro ⟨h1, parts, h2, rfl⟩
      have : xs = [] := List.length_eq_zero_iff.mp h1
      subst this
      cases h2
      exact ⟨rfl, rfl⟩
  | succ n ih =>
    refine (h.bind (fun a => ih.bind (fun as => reads_pure (a :: as)))).congr (fun xs p => ?_)
    constructor
    · rintro ⟨a, x, y, g1, ⟨as, u, v, ⟨g2, parts, g3, rfl⟩, ⟨rfl, rfl⟩, rfl⟩, rfl⟩
      exact ⟨by rw [List.length_cons, g2], x :: parts, .cons g1 g3, by rw [List.append_nil, List.flatten_cons]⟩
    · rintro ⟨h1, parts, h2, rfl⟩
      cases h2 with
      | nil => cases h1
      | @cons a x as parts g1 g2 =>
        exact ⟨a, x, parts.flatten, g1, ⟨as, parts.flatten, [], ⟨by simpa using h1, parts, g2, rfl⟩, ⟨rfl, rfl⟩, (List.append_nil _).symm⟩, rfl⟩

theorem reads_vec {α : Type} {d : Dec α} {R : α → Bytes → Prop} (h : Reads d R) : Reads (decVec d) (Repeated R) := by
  refine ((reads_var 8 253 (by simp)).bind (fun n => reads_N h n)).congr (fun xs p => ?_)
  unfold Repeated
  constructor
  · rintro ⟨n, x, y, g1, ⟨g2, parts, g3, rfl⟩, rfl⟩
    exact ⟨x, parts, by rw [g2]; exact g1, g3, rfl⟩
  · rintro ⟨n, parts, g1, g2, rfl⟩
    exact ⟨_, n, parts.flatten, g1, ⟨rfl, parts, g2, rfl⟩, rfl⟩

theorem reads_depth : Reads decBitdepth (fun bd p => Number 4 (depthCode bd) p) := by
  refine ((reads_var 4 252 (by simp)).bind (S := fun n bd p => n = depthCode bd ∧ p = []) (fun n => ?_)).congr (fun bd p => ?_)
  · match n with
    | 0 => exact (reads_pure _).congr (fun bd p => by cases bd <;> simp [depthCode])
    | 1 => exact (reads_pure _).congr (fun bd p => by cases bd <;> simp [depthCode])
    | 2 => exact (reads_pure _).congr (fun bd p => by cases bd <;> simp [depthCode])
    | 3 => exact (reads_pure _).congr (fun bd p => by cases bd <;> simp [depthCode])
    | n + 4 => exact reads_fail.congr (fun bd p => by cases bd <;> simp [depthCode])
  · constructor
    · rintro ⟨n, x, y, g1, ⟨rfl, rfl⟩, rfl⟩; rw [List.append_nil]; exact g1
    · intro g; exact ⟨_, p, [], g, ⟨rfl, rfl⟩, (List.append_nil _).symm⟩

theorem reads_method : Reads decPolyType (fun ty p => Number 4 (methodCode ty) p) := by
  refine ((reads_var 4 252 (by simp)).bind (S := fun n ty p => n = methodCode ty ∧ p = []) (fun n => ?_)).congr (fun bd p => ?_)
  · match n with
    | 0 => exact (reads_pure _).congr (fun bd p => by cases bd <;> simp [methodCode])
    | 1 => exact (reads_pure _).congr (fun bd p => by cases bd <;> simp [methodCode])
    | n + 2 => exact reads_fail.congr (fun bd p => by cases bd <;> simp [methodCode])
  · constructor
    · rintro ⟨n, x, y, g1, ⟨rfl, rfl⟩, rfl⟩; rw [List.append_nil]; exact g1
    · intro g; exact ⟨_, p, [], g, ⟨rfl, rfl⟩, (List.append_nil _).symm⟩

theorem reads_compressor : Reads decCompressor (fun c p => Number 4 (compressorCode c) p) := by
  refine ((reads_var 4 252 (by simp)).bind (S := fun n c p => n = compressorCode c ∧ p = []) (fun n => ?_)).congr (fun bd p => ?_)
  · match n with
    | 0 => exact (reads_pure _).congr (fun bd p => by cases bd <;> simp [compressorCode])
    | 1 => exact (reads_pure _).congr (fun bd p => by cases bd <;> simp [compressorCode])
    | 2 => exact (reads_pure _).congr (fun bd p => by cases bd <;> simp [compressorCode])
    | 3 => exact (reads_pure _).congr (fun bd p => by cases bd <;> simp [compressorCode])
    | 4 => exact (reads_pure _).congr (fun bd p => by cases bd <;> simp [compressorCode])
    | 5 => exact (reads_pure _).congr (fun bd p => by cases bd <;> simp [compressorCode])
    | 6 => exact (reads_pure _).congr (fun bd p => by cases bd <;> simp [compressorCode])
    | n + 7 => exact reads_fail.congr (fun bd p => by cases bd <;> simp [compressorCode])
  · constructor
    · rintro ⟨n, x, y, g1, ⟨rfl, rfl⟩, rfl⟩; rw [List.append_nil]; exact g1
    · intro g; exact ⟨_, p, [], g, ⟨rfl, rfl⟩, (List.append_nil _).symm⟩

theorem reads_sample (bd : Bitdepth) : Reads (decValue bd) (Sample bd) := by
  cases bd with
  | f64 => exact reads_double
  | i32 => exact ((reads_signed 4 252 (by simp)).map _)
  | i16 => exact ((reads_signed 2 251 (by simp)).map _)
  | u8 => exact (reads_u8.map _)

theorem reads_frame : Reads Frame.dec FramePart := by
  refine ((reads_var 8 253 (by simp)).bind fun a => (reads_var 8 253 (by simp)).bind fun b => reads_compressor.bind fun c => (reads_vec reads_u8).bind fun d =>
    reads_pure _).congr (fun f p => ?_)
  unfold FramePart
  constructor
  · rintro ⟨a, pa, y, g1, ⟨b, pb, y', g2, ⟨c, pc, y'', g3, ⟨d, pd, e, g4, ⟨rfl, rfl⟩, rfl⟩, rfl⟩, rfl⟩, rfl⟩
    rw [List.append_nil]
    exact ⟨pa, pb, pc, pd, rfl, g1, g2, g3, g4⟩
  · rintro ⟨pa, pb, pc, pd, rfl, g1, g2, g3, g4⟩
    exact ⟨_, pa, _, g1, ⟨_, pb, _, g2, ⟨_, pc, _, g3, ⟨_, pd, [], g4, ⟨rfl, rfl⟩, (List.append_nil _).symm⟩, rfl⟩, rfl⟩, rfl⟩

/-- What `unwrap` of a decoder does. -/
theorem Reads.unwrap {α : Type} {d : Dec α} {R : α → Bytes → Prop} (h : Reads d R) {bs : Bytes} {a : α} :
    unwrapDec d bs = .ok a ↔ ∃ pre rest, R a pre ∧ bs = pre ++ rest := by
  unfold unwrapDec
  constructor
  · intro hu
    cases hd : d bs with
    | none => rw [hd] at hu; cases hu
    | some x =>
      obtain ⟨a', r⟩ := x
      rw [hd] at hu
      cases hu
      obtain ⟨p, g1, g2⟩ := (h _ _ _).1 hd
      exact ⟨p, r, g1, g2⟩
  · rintro ⟨p, r, g1, g2⟩
    rw [(h _ _ _).2 ⟨p, g1, g2⟩]

/-! ### Files -/

/-- **C116, the format.** `from_bytes` succeeds exactly on the files of the grammar, with the frames it gives. -/
theorem C116_format (bs : Bytes) (frames : List Frame) : (∃ h, Stream.fromBytes bs = .ok ⟨h, frames⟩) ↔ File bs frames := by
  have four : ∀ {v : Bytes}, v.length = 4 → littleEndian v < 2 ^ 32 := by
    intro v hv
    rw [littleEndian_eq]
    have := ofLE_lt v
    rw [hv] at this
    exact this
  unfold Stream.fromBytes File
  constructor
  · rintro ⟨h, hb⟩
    split_ifs at hb with hl
    obtain ⟨hd, g1, g2⟩ := bind_ok_iff.1 hb
    obtain ⟨fs, g3, g4⟩ := bind_ok_iff.1 g2
    cases g4
    obtain ⟨pre, rest, k1, k2⟩ := (reads_vec reads_frame).unwrap.1 g3
    unfold Header.fromBytes at g1
    split_ifs at g1 with c1
    dsimp only at g1
    split_ifs at g1 with c2
    have e1 : bs.take 4 = [66, 82, 82, 79] := by
      have := not_not.1 c1
      rw [List.take_take] at this
      exact this
    have hv : ((bs.drop 4).take 4).length = 4 := by rw [List.length_take, List.length_drop]; omega
    have e2 : ((bs.take 9).drop 4).take 4 = (bs.drop 4).take 4 := by
      rw [List.drop_take, List.take_take]; rfl
    have h8 : 8 < bs.length := by omega
    refine ⟨(bs.drop 4).take 4, bs[8], pre, rest, ?_, hv, ?_, k1⟩
    · rw [← e1, ← k2]
      have a1 : bs[8] :: bs.drop 9 = bs.drop 8 := (List.drop_eq_getElem_cons h8).symm
      rw [a1]
      have a2 : (bs.drop 4).take 4 ++ bs.drop 8 = bs.drop 4 := by
        have := List.take_append_drop 4 (bs.drop 4)
        rw [List.drop_drop] at this
        exact this
      rw [a2, List.take_append_drop]
    · rw [e2] at c2
      have hle : UInt32.ofNat (ofLE ((bs.drop 4).take 4)) ≤ 1 := UInt32.not_lt.1 c2
      rw [UInt32.le_iff_toNat_le, UInt32.toNat_ofNat_of_lt' (by rw [← littleEndian_eq]; exact four hv)] at hle
      rw [littleEndian_eq]
      exact hle
  · rintro ⟨version, count, body, rest, rfl, hv, h1, hr⟩
    match version, hv with
    | [a, b, c, d], hv =>
    refine ⟨⟨UInt32.ofNat (ofLE [a, b, c, d]), count⟩, ?_⟩
    have hlen : ¬ ([66, 82, 82, 79] ++ ([a, b, c, d] ++ (count :: (body ++ rest)))).length < 9 := by simp
    rw [if_neg hlen]
    have t9 : ([66, 82, 82, 79] ++ ([a, b, c, d] ++ (count :: (body ++ rest)))).take 9 = [66, 82, 82, 79, a, b, c, d, count] := rfl
    have d9 : ([66, 82, 82, 79] ++ ([a, b, c, d] ++ (count :: (body ++ rest)))).drop 9 = body ++ rest := rfl
    rw [t9, d9]
    have hh : Header.fromBytes [66, 82, 82, 79, a, b, c, d, count] = .ok ⟨UInt32.ofNat (ofLE [a, b, c, d]), count⟩ := by
      unfold Header.fromBytes
      rw [if_neg (fun h => h rfl)]
      have hc : ¬ currentVersion < UInt32.ofNat (ofLE [a, b, c, d]) := by
        rw [UInt32.lt_iff_toNat_lt, UInt32.toNat_ofNat_of_lt' (by rw [← littleEndian_eq]; exact four hv), ← littleEndian_eq]
        have : currentVersion.toNat = 1 := rfl
        omega
      exact if_neg hc
    rw [hh, ok_bind, (reads_vec reads_frame).unwrap.2 ⟨body, rest, hr, rfl⟩, ok_bind]

/-! ### Payloads -/

theorem noop_payload {bs : Bytes} {is : List Int} : (∃ c : Noop, unwrapDec Noop.dec bs = .ok c ∧ c.data = is) ↔ NoopPayload is bs := by
  have h : Reads Noop.dec _ := reads_u8.bind fun id => (reads_vec (reads_signed 8 253 (by simp))).bind fun d => reads_pure _
  unfold NoopPayload
  constructor
  · rintro ⟨c, hc, rfl⟩
    obtain ⟨p, rest, ⟨id, x, y, rfl, ⟨d, u, v, g1, ⟨rfl, rfl⟩, rfl⟩, rfl⟩, rfl⟩ := h.unwrap.1 hc
    exact ⟨id, u, rest, by simp, g1⟩
  · rintro ⟨id, body, rest, rfl, g⟩
    refine ⟨⟨id, is⟩, h.unwrap.2 ⟨id :: body, rest, ⟨id, [id], body, rfl, ⟨is, body, [], g, ⟨rfl, rfl⟩, (List.append_nil _).symm⟩, rfl⟩, rfl⟩, rfl⟩

theorem constant_payload {bs : Bytes} {v : F64} : (∃ c : Constant, unwrapDec Constant.dec bs = .ok c ∧ c.constant = v) ↔ ConstantPayload v bs := by
  have h : Reads Constant.dec _ := reads_u8.bind fun id => reads_depth.bind fun bd => (reads_sample bd).bind fun v => reads_pure _
  unfold ConstantPayload
  constructor
  · rintro ⟨c, hc, rfl⟩
    obtain ⟨p, rest, ⟨id, x, y, rfl, ⟨bd, u, w, g1, ⟨v, u', w', g2, ⟨rfl, rfl⟩, rfl⟩, rfl⟩, rfl⟩, rfl⟩ := h.unwrap.1 hc
    exact ⟨id, bd, u, u', rest, by simp, g1, g2⟩
  · rintro ⟨id, bd, d, x, rest, rfl, g1, g2⟩
    refine ⟨⟨id, v, bd⟩, h.unwrap.2 ⟨id :: (d ++ x), rest, ⟨id, [id], d ++ x, rfl, ⟨bd, d, x, g1, ⟨v, x, [], g2, ⟨rfl, rfl⟩, (List.append_nil _).symm⟩, rfl⟩, rfl⟩,
      by simp⟩, rfl⟩

theorem rle_payload {bs : Bytes} {runs : List (F64 × List Nat)} : (∃ c : IndexRLE, unwrapDec IndexRLE.dec bs = .ok c ∧ c.rle = runs) ↔ RlePayload runs bs := by
  have hi : ∀ bd, Reads ((decValue bd).bind fun v => (decVec decU64).bind fun is => Dec.pure (v, is))
      (fun (r : F64 × List Nat) b => ∃ x is, b = x ++ is ∧ Sample bd r.1 x ∧ Repeated (Number 8) r.2 is) := by
    intro bd
    refine ((reads_sample bd).bind fun v => (reads_vec (reads_var 8 253 (by simp))).bind fun is => reads_pure (v, is)).congr (fun r p => ?_)
    constructor
    · rintro ⟨v, x, y, g1, ⟨is, u, w, g2, ⟨rfl, rfl⟩, rfl⟩, rfl⟩
      exact ⟨x, u, by simp, g1, g2⟩
    · rintro ⟨x, is, rfl, g1, g2⟩
      exact ⟨_, x, is, g1, ⟨_, is, [], g2, ⟨rfl, rfl⟩, (List.append_nil _).symm⟩, rfl⟩
  have h : Reads IndexRLE.dec _ := reads_u8.bind fun id => reads_depth.bind fun bd => (reads_vec (hi bd)).bind fun v => reads_pure _
  unfold RlePayload
  constructor
  · rintro ⟨c, hc, rfl⟩
    obtain ⟨p, rest, ⟨id, x, y, rfl, ⟨bd, u, w, g1, ⟨v, u', w', g2, ⟨rfl, rfl⟩, rfl⟩, rfl⟩, rfl⟩, rfl⟩ := h.unwrap.1 hc
    exact ⟨id, bd, u, u', rest, by simp, g1, g2⟩
  · rintro ⟨id, bd, d, x, rest, rfl, g1, g2⟩
    refine ⟨⟨id, runs, bd⟩, h.unwrap.2 ⟨id :: (d ++ x), rest, ⟨id, [id], d ++ x, rfl, ⟨bd, d, x, g1, ⟨runs, x, [], g2, ⟨rfl, rfl⟩, (List.append_nil _).symm⟩, rfl⟩, rfl⟩,
      by simp⟩, rfl⟩

theorem fft_payload {bs : Bytes} {fs : List FreqPoint} {mx mn : F32} :
    (∃ c : Fft, unwrapDec Fft.dec bs = .ok c ∧ c.frequencies = fs ∧ c.maxValue = mx ∧ c.minValue = mn) ↔ FftPayload fs mx mn bs := by
  have hi : Reads FreqPoint.dec (fun f p => ∃ x y z, p = x ++ (y ++ z) ∧ Number 2 f.pos x ∧ Single f.re y ∧ Single f.im z) := by
    refine ((reads_var 2 251 (by simp)).bind fun a => reads_single.bind fun b => reads_single.bind fun c => reads_pure _).congr (fun f p => ?_)
    constructor
    · rintro ⟨v, x, y, g1, ⟨a, u, w, g2, ⟨b, u', w', g3, ⟨rfl, rfl⟩, rfl⟩, rfl⟩, rfl⟩
      exact ⟨x, u, u', by simp, g1, g2, g3⟩
    · rintro ⟨x, y, z, rfl, g1, g2, g3⟩
      exact ⟨_, x, _, g1, ⟨_, y, _, g2, ⟨_, z, [], g3, ⟨rfl, rfl⟩, (List.append_nil _).symm⟩, rfl⟩, rfl⟩
  have h : Reads Fft.dec _ := reads_u8.bind fun id => (reads_vec hi).bind fun fs => reads_single.bind fun a => reads_single.bind fun b => reads_pure _
  unfold FftPayload
  constructor
  · rintro ⟨c, hc, rfl, rfl, rfl⟩
    obtain ⟨p, rest, ⟨id, x, y, rfl, ⟨fs, u, w, g1, ⟨a, u', w', g2, ⟨b, u'', w'', g3, ⟨rfl, rfl⟩, rfl⟩, rfl⟩, rfl⟩, rfl⟩, rfl⟩ := h.unwrap.1 hc
    exact ⟨id, u, u', u'', rest, by simp, g1, g2, g3⟩
  · rintro ⟨id, body, a, b, rest, rfl, g1, g2, g3⟩
    refine ⟨⟨id, fs, mx, mn, none⟩, h.unwrap.2 ⟨id :: (body ++ (a ++ b)), rest, ⟨id, [id], _, rfl, ⟨fs, body, _, g1, ⟨mx, a, _, g2, ⟨mn, b, [], g3, ⟨rfl, rfl⟩,
      (List.append_nil _).symm⟩, rfl⟩, rfl⟩, rfl⟩, by simp⟩, rfl, rfl, rfl⟩

theorem poly_payload {bs : Bytes} {ty : PolyType} {pts : List F64} {mn mx : F64} {step : UInt8} :
    (∃ c : Poly, unwrapDec Poly.dec bs = .ok c ∧ c.id = ty ∧ c.dataPoints = pts ∧ c.min = mn ∧ c.max = mx ∧ c.pointStep = step.toNat) ↔
      PolyPayload ty pts mn mx step bs := by
  have h : Reads Poly.dec _ := reads_method.bind fun t => reads_depth.bind fun bd => (reads_vec (reads_sample bd)).bind fun pts => reads_double.bind fun a =>
    reads_double.bind fun b => reads_u8.bind fun st => reads_pure _
  unfold PolyPayload
  constructor
  · rintro ⟨c, hc, rfl, rfl, rfl, rfl, hs⟩
    obtain ⟨p, rest, ⟨t, x, y, g0, ⟨bd, u, w, g1, ⟨pts, u', w', g2, ⟨a, u'', w'', g3, ⟨b, u3, w3, g4, ⟨st, u4, w4, rfl, ⟨rfl, rfl⟩, rfl⟩, rfl⟩, rfl⟩, rfl⟩, rfl⟩, rfl⟩, rfl⟩ :=
      h.unwrap.1 hc
    have : st = step := UInt8.toNat_inj.mp hs
    subst this
    exact ⟨x, bd, u, u', u'', u3, rest, by simp, g0, g1, g2, g3, g4⟩
  · rintro ⟨t, bd, d, body, a, b, rest, rfl, g0, g1, g2, g3, g4⟩
    refine ⟨⟨ty, pts, mn, mx, step.toNat, none, bd⟩, h.unwrap.2 ⟨t ++ (d ++ (body ++ (a ++ (b ++ [step])))), rest, ⟨ty, t, _, g0, ⟨bd, d, _, g1, ⟨pts, body, _, g2,
      ⟨mn, a, _, g3, ⟨mx, b, _, g4, ⟨step, [step], [], rfl, ⟨rfl, rfl⟩, (List.append_nil _).symm⟩, rfl⟩, rfl⟩, rfl⟩, rfl⟩, rfl⟩, by simp⟩, rfl, rfl, rfl, rfl, rfl⟩

theorem mirror_in {len : Nat} : ∀ {fs : List FreqPoint} {data out : List C32}, data.length = len → mirrorLoop len fs data = .ok out → ∀ f ∈ fs, f.pos < len
  | [], _, _, _, _ => fun f hf => (by cases hf)
  | g :: fs, data, out, hl, h => by
    unfold mirrorLoop at h
    obtain ⟨d1, h1, h2⟩ := bind_ok_iff.1 h
    unfold setAt at h1
    split_ifs at h1 with hg
    cases h1
    intro f hf
    rcases List.mem_cons.mp hf with rfl | hf
    · omega
    · split_ifs at h2 with h0
      · exact mirror_in (by simpa using hl) h2 f hf
      · obtain ⟨d2, h3, h4⟩ := bind_ok_iff.1 h2
        unfold setAt at h3
        split_ifs at h3
        cases h3
        exact mirror_in (by simpa using hl) h4 f hf

theorem transformLength_exists (n : Nat) : ∃ N pre, TransformLength n N pre := by
  by_cases h : n < 128
  · exact ⟨n, 0, Or.inl ⟨h, rfl, rfl⟩⟩
  · exact ⟨_, _, Or.inr ⟨by omega, C33_next_size n, rfl⟩⟩

theorem toData_size (n : Nat) : n + (if n ≥ 128 then nextSize n - n else 0) / 2 + ((if n ≥ 128 then nextSize n - n else 0) - (if n ≥ 128 then nextSize n - n else 0) / 2) =
    paddedLen n := by
  unfold paddedLen
  split_ifs with h
  · have := (C33_next_size n).1.1
    have h' : n < nextSize n := this
    omega
  · simp

theorem fft_toData {E : Ext} {c : Fft} {n : Nat} : (∃ out, c.toData E n = .ok out) ↔
    (c.maxValue.feq c.minValue = true ∨ ∀ N pre, TransformLength n N pre → ∀ p ∈ c.frequencies, p.pos < N) := by
  unfold Fft.toData
  by_cases hf : c.maxValue.feq c.minValue = true
  · rw [if_pos hf]
    exact ⟨fun _ => Or.inl hf, fun _ => ⟨_, rfl⟩⟩
  · rw [if_neg hf]
    dsimp only
    rw [toData_size]
    constructor
    · rintro ⟨out, h⟩
      obtain ⟨m, h1, -⟩ := bind_ok_iff.1 h
      right
      intro N pre hN p hp
      rw [(transformLength_eq hN).1]
      exact mirror_in (by simp) h1 p hp
    · rintro (h | h)
      · exact absurd h hf
      · obtain ⟨N, pre, hN⟩ := transformLength_exists n
        have hp := h N pre hN
        rw [(transformLength_eq hN).1] at hp
        obtain ⟨m, hm, -⟩ := getMirrored_ok c (paddedLen n) hp
        rw [hm, ok_bind]
        exact ⟨_, rfl⟩

theorem poly_toData {E : Ext} {c : Poly} {n : Nat} (hn : n ≠ 0) : (∃ out, c.toData E n = .ok out) ↔ (c.max.feq c.min = true ∨ c.pointStep ≠ 0) := by
  unfold Poly.toData
  by_cases hf : c.max.feq c.min = true
  · rw [if_pos hf]
    exact ⟨fun _ => Or.inl hf, fun _ => ⟨_, rfl⟩⟩
  · rw [if_neg hf]
    have key : (∃ out, c.interpolate E n = .ok out) ↔ ∃ ps, c.getPositions n = .ok ps := by
      unfold Poly.interpolate Poly.idwToData Poly.polynomialToData
      cases c.id with
      | polynomial =>
        constructor
        · rintro ⟨out, h⟩; obtain ⟨m, h1, -⟩ := bind_ok_iff.1 h; exact ⟨m, h1⟩
        · rintro ⟨ps, h⟩; dsimp only; rw [h, ok_bind]; exact ⟨_, rfl⟩
      | idw =>
        constructor
        · rintro ⟨out, h⟩; obtain ⟨m, h1, -⟩ := bind_ok_iff.1 h; exact ⟨m, h1⟩
        · rintro ⟨ps, h⟩; dsimp only; rw [h, ok_bind]; exact ⟨_, rfl⟩
    rw [key]
    unfold Poly.getPositions
    constructor
    · rintro ⟨ps, h⟩
      split_ifs at h with h0 h1
      exact Or.inr h0
    · rintro (h | h)
      · exact absurd h hf
      · rw [if_neg h, if_neg hn]; exact ⟨_, rfl⟩

/-- A polynomial or IDW frame of no samples (`frame_size - 1` underflows; never written). -/
def Empty (f : Frame) : Prop := (f.compressor = .polynomial ∨ f.compressor = .idw) ∧ f.sampleCount = 0

/-- **C116, frames.** A frame can be uncompressed exactly if its payload has the form its compressor demands, no frequency of an FFT frame that is not flat lies
outside the transform, and no polynomial or IDW frame that is not flat has step 0. -/
theorem C116_frame (E : Ext) (f : Frame) (he : ¬ Empty f) : (∃ out, f.decompress E = .ok out) ↔ Decodable f := by
  have poly : f.sampleCount ≠ 0 → ((∃ out, polyToData E f.sampleCount f.data = .ok out) ↔
      ∃ ty pts mn mx step, PolyPayload ty pts mn mx step f.data ∧ (mx.feq mn = true ∨ step ≠ 0)) := by
    intro hn
    unfold polyToData
    constructor
    · rintro ⟨out, h⟩
      obtain ⟨c, h1, h2⟩ := bind_ok_iff.1 h
      have hs : c.pointStep < 256 := by
        have hr : Reads Poly.dec _ := reads_method.bind fun t => reads_depth.bind fun bd => (reads_vec (reads_sample bd)).bind fun pts => reads_double.bind fun a =>
          reads_double.bind fun b => reads_u8.bind fun st => reads_pure _
        obtain ⟨p, rest, ⟨t, x, y, g0, ⟨bd, u, w, g1, ⟨pts, u', w', g2, ⟨a, u'', w'', g3, ⟨b, u3, w3, g4, ⟨st, u4, w4, rfl, ⟨rfl, rfl⟩, rfl⟩, rfl⟩, rfl⟩, rfl⟩, rfl⟩, rfl⟩, -⟩ :=
          hr.unwrap.1 h1
        exact st.toNat_lt
      have e : c.pointStep = (UInt8.ofNat c.pointStep).toNat := (UInt8.toNat_ofNat_of_lt' hs).symm
      refine ⟨_, _, _, _, _, poly_payload.1 ⟨c, h1, rfl, rfl, rfl, rfl, e⟩, ?_⟩
      rcases (poly_toData hn).1 ⟨out, h2⟩ with h | h
      · exact Or.inl h
      · refine Or.inr (fun h0 => h ?_)
        rw [e, h0]; rfl
    · rintro ⟨ty, pts, mn, mx, step, h1, h2⟩
      obtain ⟨c, hc, rfl, rfl, rfl, rfl, e⟩ := poly_payload.2 h1
      rw [hc, ok_bind]
      refine (poly_toData hn).2 ?_
      rcases h2 with h | h
      · exact Or.inl h
      · refine Or.inr (fun h0 => h (UInt8.toNat_inj.mp ?_))
        rw [← e, h0]; rfl
  unfold Frame.decompress Compressor.decompress Decodable
  unfold Empty at he
  cases hc : f.compressor with
  | noop =>
    dsimp only
    unfold noopToData
    constructor
    · rintro ⟨out, h⟩
      obtain ⟨c, h1, -⟩ := bind_ok_iff.1 h
      exact ⟨_, noop_payload.1 ⟨c, h1, rfl⟩⟩
    · rintro ⟨is, h⟩
      obtain ⟨c, h1, -⟩ := noop_payload.2 h
      rw [h1, ok_bind]
      exact ⟨_, rfl⟩
  | constant =>
    dsimp only
    unfold constantToData
    constructor
    · rintro ⟨out, h⟩
      obtain ⟨c, h1, -⟩ := bind_ok_iff.1 h
      exact ⟨_, constant_payload.1 ⟨c, h1, rfl⟩⟩
    · rintro ⟨is, h⟩
      obtain ⟨c, h1, -⟩ := constant_payload.2 h
      rw [h1, ok_bind]
      exact ⟨_, rfl⟩
  | rle =>
    dsimp only
    unfold rleToData
    constructor
    · rintro ⟨out, h⟩
      obtain ⟨c, h1, -⟩ := bind_ok_iff.1 h
      exact ⟨_, rle_payload.1 ⟨c, h1, rfl⟩⟩
    · rintro ⟨is, h⟩
      obtain ⟨c, h1, -⟩ := rle_payload.2 h
      rw [h1, ok_bind]
      exact ⟨_, rfl⟩
  | fft =>
    dsimp only
    unfold fftToData
    constructor
    · rintro ⟨out, h⟩
      obtain ⟨c, h1, h2⟩ := bind_ok_iff.1 h
      exact ⟨_, _, _, fft_payload.1 ⟨c, h1, rfl, rfl, rfl⟩, fft_toData.1 ⟨out, h2⟩⟩
    · rintro ⟨fs, mx, mn, h1, h2⟩
      obtain ⟨c, hc, rfl, rfl, rfl⟩ := fft_payload.2 h1
      rw [hc, ok_bind]
      exact fft_toData.2 h2
  | polynomial => exact poly (fun h => he ⟨Or.inl hc, h⟩)
  | idw => exact poly (fun h => he ⟨Or.inr hc, h⟩)
  | auto =>
    refine ⟨?_, False.elim⟩
    rintro ⟨out, h⟩
    cases h

theorem all_ok {E : Ext} : ∀ {fs : List Frame}, (∃ out, decompressAll E fs = .ok out) ↔ ∀ f ∈ fs, ∃ out, f.decompress E = .ok out
  | [] => ⟨fun _ f hf => (by cases hf), fun _ => ⟨[], rfl⟩⟩
  | f :: fs => by
    unfold decompressAll
    constructor
    · rintro ⟨out, h⟩
      obtain ⟨a, h1, h2⟩ := bind_ok_iff.1 h
      obtain ⟨b, h3, -⟩ := bind_ok_iff.1 h2
      intro g hg
      rcases List.mem_cons.mp hg with rfl | hg
      · exact ⟨a, h1⟩
      · exact all_ok.1 ⟨b, h3⟩ g hg
    · intro h
      obtain ⟨a, h1⟩ := h f List.mem_cons_self
      obtain ⟨b, h2⟩ := all_ok.2 (fun g hg => h g (List.mem_cons_of_mem _ hg))
      rw [h1, ok_bind, h2, ok_bind]
      exact ⟨_, rfl⟩

/-- **C116, which files can be uncompressed.** Exactly those of the grammar all of whose frames can be. -/
theorem C116_uncompress (E : Ext) (bs : Bytes) (he : ∀ frames, File bs frames → ∀ f ∈ frames, ¬ Empty f) :
    (∃ out, decompressData E bs = .ok out) ↔ ∃ frames, File bs frames ∧ ∀ f ∈ frames, Decodable f := by
  unfold decompressData Stream.decompress
  constructor
  · rintro ⟨out, h⟩
    obtain ⟨s, h1, h2⟩ := bind_ok_iff.1 h
    have hf : File bs s.frames := (C116_format bs s.frames).1 ⟨s.header, h1⟩
    exact ⟨s.frames, hf, fun f hm => (C116_frame E f (he _ hf f hm)).1 (all_ok.1 ⟨out, h2⟩ f hm)⟩
  · rintro ⟨frames, hf, h⟩
    obtain ⟨hd, h1⟩ := (C116_format bs frames).2 hf
    rw [h1, ok_bind]
    exact all_ok.2 (fun f hm => (C116_frame E f (he _ hf f hm)).2 (h f hm))

/-- **C116, no second reading.** The bytes determine the frames. -/
theorem C116_unambiguous (bs : Bytes) (fs gs : List Frame) (hf : File bs fs) (hg : File bs gs) : fs = gs := by
  obtain ⟨a, ha⟩ := (C116_format bs fs).2 hf
  obtain ⟨b, hb⟩ := (C116_format bs gs).2 hg
  rw [ha] at hb
  exact congrArg Stream.frames (Except.ok.inj hb)

/-- **C116, Noop.** The samples are the whole numbers of the payload. -/
theorem C116_noop (E : Ext) (f : Frame) (hc : f.compressor = .noop) (is : List Int) (h : NoopPayload is f.data) :
    f.decompress E = .ok (is.map fun i => FP.ofInt i) := by
  unfold Frame.decompress Compressor.decompress
  rw [hc]
  dsimp only
  unfold noopToData
  obtain ⟨c, h1, rfl⟩ := noop_payload.2 h
  rw [h1, ok_bind]

/-- **C116, Constant.** The samples are all the one of the payload. -/
theorem C116_constant (E : Ext) (f : Frame) (hc : f.compressor = .constant) (v : F64) (h : ConstantPayload v f.data) :
    f.decompress E = .ok (List.replicate f.sampleCount v) := by
  unfold Frame.decompress Compressor.decompress
  rw [hc]
  dsimp only
  unfold constantToData
  obtain ⟨c, h1, rfl⟩ := constant_payload.2 h
  rw [h1, ok_bind]
  rfl

/-- **C116, flat FFT frames.** -/
theorem C116_flat_fft (E : Ext) (f : Frame) (hc : f.compressor = .fft) (fs : List FreqPoint) (mx mn : F32) (h : FftPayload fs mx mn f.data)
    (hf : mx.feq mn = true) : f.decompress E = .ok (List.replicate f.sampleCount (FP.cvt mx)) := by
  unfold Frame.decompress Compressor.decompress
  rw [hc]
  dsimp only
  unfold fftToData
  obtain ⟨c, h1, rfl, rfl, rfl⟩ := fft_payload.2 h
  rw [h1, ok_bind]
  unfold Fft.toData
  rw [if_pos hf]

/-- **C116, flat polynomial and IDW frames.** -/
theorem C116_flat_poly (E : Ext) (f : Frame) (hc : f.compressor = .polynomial ∨ f.compressor = .idw) (ty : PolyType) (pts : List F64) (mn mx : F64) (step : UInt8)
    (h : PolyPayload ty pts mn mx step f.data) (hf : mx.feq mn = true) : f.decompress E = .ok (List.replicate f.sampleCount mx) := by
  have key : polyToData E f.sampleCount f.data = .ok (List.replicate f.sampleCount mx) := by
    unfold polyToData
    obtain ⟨c, h1, rfl, rfl, rfl, rfl, -⟩ := poly_payload.2 h
    rw [h1, ok_bind]
    unfold Poly.toData
    rw [if_pos hf]
  unfold Frame.decompress Compressor.decompress
  rcases hc with hc | hc <;> rw [hc] <;> exact key

theorem fillRange_get (d : List F64) (a b : Nat) (v : F64) (i : Nat) (hi : i < d.length) :
    (fillRange d a b v)[i]? = if a ≤ i ∧ i < b then some v else d[i]? := by
  unfold fillRange
  rw [List.getElem?_mapIdx, List.getElem?_eq_getElem hi, Option.map_some]
  by_cases h : a ≤ i ∧ i < b
  · rw [if_pos h, if_pos h]
  · rw [if_neg h, if_neg h]

theorem rleFill_before {n i : Nat} : ∀ {l : List (Nat × F64)} {d : List F64}, i < d.length → (∀ p ∈ l, i < p.1) → (rleFill n l d)[i]? = d[i]?
  | [], _, _, _ => rfl
  | [(s, v)], d, hd, h => by
    rw [rleFill, fillRange_get _ _ _ _ _ hd, if_neg]
    have := h (s, v) List.mem_cons_self
    exact fun hc => Nat.not_lt.mpr hc.1 this
  | (s, v) :: (s', v') :: l, d, hd, h => by
    rw [rleFill, rleFill_before (by rw [fillRange_length]; exact hd) (fun p hp => h p (List.mem_cons_of_mem _ hp)), fillRange_get _ _ _ _ _ hd, if_neg]
    have := h (s, v) List.mem_cons_self
    exact fun hc => Nat.not_lt.mpr hc.1 this

theorem rleFill_at {n i : Nat} (hi : i < n) : ∀ {l : List (Nat × F64)} {d : List F64}, n = d.length → l.Pairwise (fun a b => a.1 < b.1) →
    ∀ p ∈ l, p.1 ≤ i → (∀ q ∈ l, q.1 ≤ i → q.1 ≤ p.1) → (rleFill n l d)[i]? = some p.2
  | [], _, _, _ => fun p hp => (by cases hp)
  | [(s, v)], d, hn, _ => by
    intro p hp h1 _
    rw [List.mem_singleton] at hp
    subst hp
    rw [rleFill, fillRange_get _ _ _ _ _ (hn ▸ hi), if_pos ⟨h1, hi⟩]
  | (s, v) :: (s', v') :: l, d, hn, hs => by
    intro p hp h1 h2
    rw [rleFill]
    have hl : n = (fillRange d s s' v).length := by rw [fillRange_length]; exact hn
    have hp1 := List.pairwise_cons.mp hs
    rcases List.mem_cons.mp hp with rfl | hp
    · have hlt : i < s' := by
        by_contra hc
        have := h2 (s', v') (List.mem_cons_of_mem _ List.mem_cons_self) (Nat.not_lt.mp hc)
        exact Nat.not_lt.mpr this (hp1.1 (s', v') List.mem_cons_self)
      have hall : ∀ q ∈ (s', v') :: l, i < q.1 := by
        intro q hq
        rcases List.mem_cons.mp hq with rfl | hq
        · exact hlt
        · exact Nat.lt_trans hlt ((List.pairwise_cons.mp hp1.2).1 q hq)
      rw [rleFill_before (hl ▸ hi) hall, fillRange_get _ _ _ _ _ (hn ▸ hi), if_pos ⟨h1, hlt⟩]
    · exact rleFill_at hi hl hp1.2 p hp h1 (fun q hq => h2 q (List.mem_cons_of_mem _ hq))

/-- **C116, RLE.** If no two runs begin at one position, every sample is the value of the run that begins last up to it, and zero before the first run. -/
theorem C116_rle (E : Ext) (f : Frame) (hc : f.compressor = .rle) (runs : List (F64 × List Nat)) (h : RlePayload runs f.data)
    (hn : (runs.flatMap fun r => r.2).Nodup) : ∃ out, f.decompress E = .ok out ∧ RunsGive f.sampleCount runs out := by
  unfold Frame.decompress Compressor.decompress
  rw [hc]
  dsimp only
  unfold rleToData
  obtain ⟨c, h1, rfl⟩ := rle_payload.2 h
  rw [h1, ok_bind]
  refine ⟨_, rfl, ?_⟩
  unfold IndexRLE.toData
  dsimp only
  set flat := c.rle.flatMap (fun p => p.2.map fun i => (i, p.1)) with hflat
  have hmem : ∀ s v, (s, v) ∈ sortByKey flat ↔ ∃ r ∈ c.rle, s ∈ r.2 ∧ v = r.1 := by
    intro s v
    rw [(sortByKey_perm flat).mem_iff, hflat, List.mem_flatMap]
    refine exists_congr fun r => and_congr_right fun _ => ?_
    rw [List.mem_map]
    constructor
    · rintro ⟨a, ha, he⟩; cases he; exact ⟨ha, rfl⟩
    · rintro ⟨ha, rfl⟩; exact ⟨s, ha, rfl⟩
  have hkeys : ((sortByKey flat).map Prod.fst).Nodup := by
    refine ((sortByKey_perm flat).map Prod.fst).nodup_iff.mpr ?_
    rw [hflat, List.map_flatMap]
    refine (congrArg List.Nodup ?_).mpr hn
    congr 1
    funext p
    rw [List.map_map]
    exact List.map_id _
  have hsorted : (sortByKey flat).Pairwise (fun a b => a.1 < b.1) := by
    have h2 : (sortByKey flat).Pairwise (fun a b => a.1 ≠ b.1) := List.pairwise_map.mp hkeys
    exact ((sortByKey_sorted flat).and h2).imp (fun hab => lt_of_le_of_ne hab.1 hab.2)
  have hlen : f.sampleCount = (List.replicate f.sampleCount (FP.zero : F64)).length := List.length_replicate.symm
  refine ⟨by rw [rleFill_length, List.length_replicate], fun i hi => ⟨fun hb => ?_, fun r hr s hs hsi hmax => ?_⟩⟩
  · rw [rleFill_before (hlen ▸ hi)]
    · rw [List.getElem?_replicate, if_pos hi]
    · rintro ⟨s, v⟩ hp
      obtain ⟨r, hr, hs, -⟩ := (hmem s v).1 hp
      exact hb r hr s hs
  · refine rleFill_at hi hlen hsorted (s, r.1) ((hmem s r.1).2 ⟨r, hr, hs, rfl⟩) hsi ?_
    rintro ⟨s', v'⟩ hq hq1
    obtain ⟨r', hr', hs', -⟩ := (hmem s' v').1 hq
    exact hmax r' hr' s' hs' hq1

theorem round_within (x lo hi : F64) (h : lo.le hi = true) : RoundedWithin lo hi x (roundAndLimit x lo hi 5) := by
  obtain ⟨c1, c2⟩ := C32_clamped x lo hi 5 (by decide) h
  refine ⟨fun hy => ?_, fun hf hb => ?_⟩
  · cases hx : x.isNaN with
    | false => exact c1 hx
    | true => rw [c2 hx] at hy; cases hy
  · obtain ⟨hrf, he⟩ := decimal_err hf hb (show 5 ≤ 9 by decide)
    have hle := le_iff.1 h
    have hv : lo.val ≤ hi.val := (val_le_iff (by decide)).2 hle.2.2
    have hc := clamp_close (lo := lo.val) (hi := hi.val) he
    rw [roundAndLimit_eq]
    split_ifs with c1 c2
    · have v3 := (val_lt_iff (by decide)).2 (lt_iff.1 c1).2.2
      refine ⟨hle.1, ?_⟩
      rw [min_eq_left (by linarith), max_eq_left v3.le] at hc; exact hc
    · have v3 := (val_lt_iff (by decide)).2 (lt_iff.1 c2).2.2
      refine ⟨hle.2.1, ?_⟩
      rw [min_eq_right v3.le, max_eq_right hv] at hc; exact hc
    · refine ⟨isFinite_not_nan hrf, ?_⟩
      have v1 := (val_le_iff (by decide)).2 (le_iff.1 (le_of_not_lt (isFinite_not_nan hrf) hle.1 c1)).2.2
      have v2 := (val_le_iff (by decide)).2 (le_iff.1 (le_of_not_lt hle.2.1 (isFinite_not_nan hrf) c2)).2.2
      rw [min_eq_left v2, max_eq_right v1] at hc; exact hc

theorem positions_at {n step : Nat} (hn : 1 ≤ n) (hs : 1 ≤ step) : PointsAt n step (positions n step) := by
  have hk : (n + step - 1) / step = (n - 1) / step + 1 := by
    rw [show n + step - 1 = n - 1 + step by omega, Nat.add_div_right _ (by omega)]
  have hlt : ∀ k, k < (n - 1) / step + 1 ↔ k * step < n := by
    intro k
    rw [Nat.lt_succ_iff, Nat.le_div_iff_mul_le (by omega)]; omega
  have hmem : ∀ x, x ∈ (List.range ((n + step - 1) / step)).map (· * step) ↔ x < n ∧ step ∣ x := by
    intro x
    rw [List.mem_map, hk]
    constructor
    · rintro ⟨k, h1, rfl⟩; exact ⟨(hlt k).1 (List.mem_range.mp h1), Dvd.intro_left _ rfl⟩
    · rintro ⟨h1, k, rfl⟩; exact ⟨k, List.mem_range.mpr ((hlt k).2 (by rw [Nat.mul_comm]; exact h1)), Nat.mul_comm _ _⟩
  have hinc : ((List.range ((n + step - 1) / step)).map (· * step)).Pairwise (· < ·) := by
    rw [List.pairwise_map]
    exact List.pairwise_lt_range.imp (fun h => Nat.mul_lt_mul_of_pos_right h (by omega))
  unfold positions
  dsimp only
  by_cases hl : ((List.range ((n + step - 1) / step)).map (· * step)).getLast? ≠ some (n - 1)
  · rw [if_pos hl]
    have hnot : n - 1 ∉ (List.range ((n + step - 1) / step)).map (· * step) := by
      intro hc
      refine hl ?_
      rw [hmem] at hc
      rw [hk, List.range_succ, List.map_append, List.map_cons, List.map_nil, List.getLast?_append, List.getLast?_singleton, Option.some_or, Nat.div_mul_cancel hc.2]
    constructor
    · rw [List.pairwise_append]
      refine ⟨hinc, List.pairwise_singleton _ _, fun a ha b hb => ?_⟩
      rw [List.mem_singleton] at hb
      subst hb
      have := ((hmem a).1 ha).1
      rcases Nat.lt_or_ge a (n - 1) with h | h
      · exact h
      · have : a = n - 1 := by omega
        exact absurd (this ▸ ha) hnot
    · intro x
      rw [List.mem_append, hmem, List.mem_singleton]
      constructor
      · rintro (⟨h1, h2⟩ | rfl)
        · exact ⟨h1, Or.inl h2⟩
        · exact ⟨by omega, Or.inr (by omega)⟩
      · rintro ⟨h1, h2 | h2⟩
        · exact Or.inl ⟨h1, h2⟩
        · exact Or.inr (by omega)
  · rw [if_neg hl]
    refine ⟨hinc, fun x => ?_⟩
    rw [hmem]
    constructor
    · rintro ⟨h1, h2⟩; exact ⟨h1, Or.inl h2⟩
    · rintro ⟨h1, h2 | h2⟩
      · exact ⟨h1, h2⟩
      · refine (hmem x).1 ?_
        have : x = n - 1 := by omega
        rw [this]
        exact List.mem_of_getLast? (not_not.1 hl)

theorem splineKeys_of (ps : List Nat) (pts : List F64) : KeysOf ps pts (splineKeys ps pts) := by
  unfold KeysOf splineKeys
  refine ⟨by simp, fun k p v h1 h2 => ?_⟩
  have hz : (ps.zip pts)[k]? = some (p, v) := List.getElem?_zip_eq_some.mpr ⟨h1, h2⟩
  rw [List.getElem?_mapIdx, hz, Option.map_some]
  have : (decide (0 < k) && decide (ps.length - k > 2)) = decide (1 ≤ k ∧ k + 2 < ps.length) := by
    rw [← Bool.decide_and]
    refine decide_eq_decide.mpr ?_
    omega
  rw [this]

/-- What the samples come from: the spline where it has a value, else what the sample before came from. -/
theorem splineSamples_get (g : F64 → Option F64) (mn mx : F64) (n : Nat) :
    ∃ w : Nat → F64, (∀ i, w i = (g (F64.lit i)).getD (if i = 0 then mn else w (i - 1))) ∧
      splineSamples g mn mx 5 (List.range n) mn = (List.range n).map fun i => roundAndLimit (w i) mn mx 5 := by
  let w : Nat → F64 := fun i => Nat.rec ((g (F64.lit (0 : Nat))).getD mn) (fun j prev => (g (F64.lit (j + 1 : Nat))).getD prev) i
  have w0 : w 0 = (g (F64.lit (0 : Nat))).getD mn := rfl
  have ws : ∀ j, w (j + 1) = (g (F64.lit (j + 1 : Nat))).getD (w j) := fun _ => rfl
  have hw : ∀ i, w i = (g (F64.lit i)).getD (if i = 0 then mn else w (i - 1)) := by
    intro i
    cases i with
    | zero => rw [if_pos rfl]; exact w0
    | succ j => rw [if_neg (Nat.succ_ne_zero j)]; exact ws j
  refine ⟨w, hw, ?_⟩
  have key : ∀ m s : Nat, splineSamples g mn mx 5 (List.range' s m) (if s = 0 then mn else w (s - 1)) = (List.range' s m).map fun i => roundAndLimit (w i) mn mx 5 := by
    intro m
    induction m with
    | zero => intro s; rfl
    | succ m ih =>
      intro s
      rw [List.range'_succ, splineSamples, List.map_cons, ← hw s]
      have := ih (s + 1)
      rw [if_neg (Nat.succ_ne_zero s)] at this
      rw [← this]
      rfl
  have := key n 0
  rw [if_pos rfl] at this
  rw [List.range_eq_range']
  exact this

/-- **C116, polynomial and IDW frames.** Each sample is the value of the interpolation through the points, put at every `step`-th position and at the last, rounded to
five decimals within the limits; where the spline has none, the value before it, and at first the smallest value. -/
theorem C116_poly (E : Ext) (f : Frame) (hc : f.compressor = .polynomial ∨ f.compressor = .idw) (ty : PolyType) (pts : List F64) (mn mx : F64) (step : UInt8)
    (h : PolyPayload ty pts mn mx step f.data) (hn : f.sampleCount ≠ 0) (hs : step ≠ 0) (hlt : mn.lt mx = true) :
    ∃ ps out, PointsAt f.sampleCount step.toNat ps ∧ f.decompress E = .ok out ∧ out.length = f.sampleCount ∧ ∃ w : Nat → F64,
      (∀ i (hi : i < out.length), RoundedWithin mn mx (w i) out[i]) ∧
      Interpolates E ty f.sampleCount ps pts mn w := by
  obtain ⟨c, h1, rfl, rfl, rfl, rfl, e⟩ := poly_payload.2 h
  have hst : step.toNat ≠ 0 := fun h0 => hs (UInt8.toNat_inj.mp h0)
  have hlt' := lt_iff.1 hlt
  have hle : c.min.le c.max = true := le_iff.2 ⟨hlt'.1, hlt'.2.1, by omega⟩
  have hne : ¬ c.max.feq c.min = true := by
    intro hf; have := (feq_iff.1 hf).2.2; omega
  have hg : c.getPositions f.sampleCount = .ok (positions f.sampleCount step.toNat) := by
    unfold Poly.getPositions
    rw [e, if_neg hst, if_neg hn]
  have hd : f.decompress E = c.interpolate E f.sampleCount := by
    have key : polyToData E f.sampleCount f.data = c.interpolate E f.sampleCount := by
      unfold polyToData
      rw [h1, ok_bind]
      unfold Poly.toData
      rw [if_neg hne]
    unfold Frame.decompress Compressor.decompress
    rcases hc with hc | hc <;> rw [hc] <;> exact key
  rw [hd]
  refine ⟨positions f.sampleCount step.toNat, ?_⟩
  unfold Poly.interpolate
  cases hid : c.id with
  | idw =>
    dsimp only
    unfold Poly.idwToData
    rw [hg, ok_bind]
    refine ⟨_, positions_at (by omega) (by omega), rfl, by rw [List.length_map, List.length_range], fun i => E.idw _ _ _, fun i hi => ?_, fun i _ => rfl⟩
    rw [List.getElem_map, List.getElem_range]
    exact round_within _ _ _ hle
  | polynomial =>
    dsimp only
    unfold Poly.polynomialToData
    rw [hg, ok_bind]
    obtain ⟨w, hw, hout⟩ := splineSamples_get (E.spline (splineKeys (positions f.sampleCount step.toNat) c.dataPoints)) c.min c.max f.sampleCount
    dsimp only
    rw [hout]
    refine ⟨_, positions_at (by omega) (by omega), rfl, by rw [List.length_map, List.length_range], w, fun i hi => ?_, _, splineKeys_of _ _, fun i _ => hw i⟩
    rw [List.getElem_map, List.getElem_range]
    exact round_within _ _ _ hle

/-- **C116, FFT frames.** If the frequencies stand at different places of the first half: each sample is the real part of the inverse transform of the spectrum that has
the frequencies, their mirrored conjugates and zeros, divided by the length, rounded to five decimals within the limits. -/
theorem C116_fft (E : Ext) (hE : E.Lawful) (f : Frame) (hc : f.compressor = .fft) (fs : List FreqPoint) (mx mn : F32) (h : FftPayload fs mx mn f.data)
    (hn : 1 ≤ f.sampleCount) (N pre : Nat) (hN : TransformLength f.sampleCount N pre) (hlt : mn.lt mx = true) (hnd : (fs.map (·.pos)).Nodup)
    (hp : ∀ p ∈ fs, p.pos ≤ N / 2) :
    ∃ sp out, MirrorSpectrum fs N sp ∧ f.decompress E = .ok out ∧ out.length = f.sampleCount ∧
      ∀ i (hi : i < out.length), ∃ z, (E.fftInv sp)[pre + i]? = some z ∧
        RoundedWithin (FP.cvt mn) (FP.cvt mx) (FP.cvt (z.re.div (FP.ofInt N))) out[i] := by
  obtain ⟨c, h1, rfl, rfl, rfl⟩ := fft_payload.2 h
  have := C64_decoder_spectrum E hE f.sampleCount N pre hn hN f.data c h1 hlt hnd hp
  unfold Frame.decompress
  rw [hc]
  exact this

/-! ### Files that show the hypotheses are met -/

/-- A file of one Constant frame: seven, five times.  The number of samples is written in three bytes, where one would do. -/
def constantFile : Bytes := [66, 82, 82, 79, 1, 0, 0, 0, 1, 1, 10, 251, 5, 0, 3, 3, 30, 3, 7]

def constantFrame : Frame := { frameSize := 10, sampleCount := 5, compressor := .constant, data := [30, 3, 7] }

theorem constantFile_is : File constantFile [constantFrame] :=
  ⟨[1, 0, 0, 0], 1, [1, 10, 251, 5, 0, 3, 3, 30, 3, 7], [], rfl, rfl, by decide,
    [1], [[10, 251, 5, 0, 3, 3, 30, 3, 7]], .byte 1 (by decide),
    .cons ⟨[10], [251, 5, 0], [3], [3, 30, 3, 7], rfl, .byte 10 (by decide), .wide 251 2 [5, 0] (by simp) (by decide) rfl, .byte 3 (by decide),
      [3], [[30], [3], [7]], .byte 3 (by decide), .cons rfl (.cons rfl (.cons rfl .nil)), rfl⟩ .nil, rfl⟩

theorem constantFrame_is : ConstantPayload (FP.ofInt 7) constantFrame.data :=
  ⟨30, .u8, [3], [7], [], rfl, .byte 3 (by decide), 7, rfl, rfl⟩

example (E : Ext) : ∃ out, decompressData E constantFile = .ok out :=
  (C116_uncompress E constantFile (fun fs hf f hm => by
    rw [C116_unambiguous _ _ _ hf constantFile_is, List.mem_singleton] at hm
    subst hm
    exact fun h => by rcases h.1 with h | h <;> cases h)).2 ⟨_, constantFile_is, fun f hm => by
      rw [List.mem_singleton] at hm
      subst hm
      exact ⟨_, constantFrame_is⟩⟩

example (E : Ext) : constantFrame.decompress E = .ok (List.replicate 5 (FP.ofInt 7)) := C116_constant E constantFrame rfl _ constantFrame_is

/-- The same file with version 2, with another first letter, or one byte short, is none. -/
example : ∀ bs ∈ [constantFile.set 4 2, constantFile.set 0 65, constantFile.dropLast], ¬ ∃ fs, File bs fs := by
  rintro bs hb ⟨fs, hf⟩
  obtain ⟨h, he⟩ := (C116_format bs fs).2 hf
  have hall : ∀ bs ∈ [constantFile.set 4 2, constantFile.set 0 65, constantFile.dropLast], (match Stream.fromBytes bs with | .ok _ => false | .error _ => true) = true := by
    decide +kernel
  have := hall bs hb
  rw [he] at this
  cases this

/-- With bytes after the last frame it still is one, of the same frame. -/
example : File (constantFile ++ [1, 2, 3]) [constantFrame] := by
  obtain ⟨v, c, b, r, e, h⟩ := constantFile_is
  refine ⟨v, c, b, r ++ [1, 2, 3], ?_, h⟩
  rw [e]; simp

/-- An RLE frame: two from position 1 on, nine from position 3 on, zero at the first. -/
def rleFrame : Frame := { frameSize := 0, sampleCount := 5, compressor := .rle, data := [60, 3, 2, 2, 1, 1, 9, 1, 3] }

theorem two_is : Sample .u8 (FP.ofInt 2) [2] := ⟨2, rfl, rfl⟩
theorem nine_is : Sample .u8 (FP.ofInt 9) [9] := ⟨9, rfl, rfl⟩

theorem rleFrame_is : RlePayload [(FP.ofInt 2, [1]), (FP.ofInt 9, [3])] rleFrame.data :=
  ⟨60, .u8, [3], [2, 2, 1, 1, 9, 1, 3], [], rfl, .byte 3 (by decide), [2], [[2, 1, 1], [9, 1, 3]], .byte 2 (by decide),
    .cons ⟨[2], [1, 1], rfl, two_is, [1], [[1]], .byte 1 (by decide), .cons (.byte 1 (by decide)) .nil, rfl⟩
      (.cons ⟨[9], [1, 3], rfl, nine_is, [1], [[3]], .byte 1 (by decide), .cons (.byte 3 (by decide)) .nil, rfl⟩ .nil), rfl⟩

example (E : Ext) : ∃ out, rleFrame.decompress E = .ok out ∧ RunsGive 5 [(FP.ofInt 2, [1]), (FP.ofInt 9, [3])] out :=
  C116_rle E rleFrame rfl _ rleFrame_is (by decide)

/-- A polynomial frame of step 2 with points 1, 3 between 1 and 3, and the same one with step 0, which cannot be uncompressed. -/
def polyFrame (step : UInt8) : Frame :=
  { frameSize := 0, sampleCount := 3, compressor := .polynomial, data := [0, 3, 2, 1, 3, 0, 0, 0, 0, 0, 0, 0xf0, 0x3f, 0, 0, 0, 0, 0, 0, 8, 0x40, step] }

theorem polyFrame_is (step : UInt8) : PolyPayload .polynomial [FP.ofInt 1, FP.ofInt 3] (FP.ofInt 1) (FP.ofInt 3) step (polyFrame step).data :=
  ⟨[0], .u8, [3], [2, 1, 3], [0, 0, 0, 0, 0, 0, 0xf0, 0x3f], [0, 0, 0, 0, 0, 0, 8, 0x40], [], rfl, .byte 0 (by decide), .byte 3 (by decide),
    ⟨[2], [[1], [3]], .byte 2 (by decide), .cons ⟨1, rfl, rfl⟩ (.cons ⟨3, rfl, rfl⟩ .nil), rfl⟩, ⟨rfl, by decide +kernel⟩, ⟨rfl, by decide +kernel⟩⟩

example (E : Ext) := C116_poly E (polyFrame 2) (Or.inl rfl) _ _ _ _ 2 (polyFrame_is 2) (by decide) (by decide) (by decide +kernel)

example (E : Ext) : ¬ ∃ out, (polyFrame 0).decompress E = .ok out := by
  rw [C116_frame E _ (fun h => by cases h.2)]
  rintro ⟨ty, pts, mn, mx, st, h1, h2⟩
  obtain ⟨c, e, -, -, rfl, rfl, e5⟩ := poly_payload.2 h1
  obtain ⟨c', e', -, -, e3', e4', e5'⟩ := poly_payload.2 (polyFrame_is 0)
  rw [e] at e'
  cases Except.ok.inj e'
  rcases h2 with h2 | h2
  · rw [e3', e4'] at h2
    exact absurd h2 (by decide +kernel)
  · exact h2 (UInt8.toNat_inj.mp (e5.symm.trans e5'))

/-- An FFT frame of 4 samples with one frequency at place 1, or at place 4, outside the transform. -/
def fftFrame (pos : UInt8) : Frame :=
  { frameSize := 0, sampleCount := 4, compressor := .fft, data := [15, 1, pos, 0, 0, 0x80, 0x3f, 0, 0, 0, 0, 0, 0, 0x80, 0x3f, 0, 0, 0, 0] }

theorem fftFrame_is (pos : UInt8) (h : pos.toNat ≤ 250) :
    FftPayload [{ pos := pos.toNat, re := FP.ofInt 1, im := FP.zero }] (FP.ofInt 1) FP.zero (fftFrame pos).data :=
  ⟨15, [1, pos, 0, 0, 0x80, 0x3f, 0, 0, 0, 0], [0, 0, 0x80, 0x3f], [0, 0, 0, 0], [], rfl,
    ⟨[1], [[pos, 0, 0, 0x80, 0x3f, 0, 0, 0, 0]], .byte 1 (by decide),
      .cons ⟨[pos], [0, 0, 0x80, 0x3f], [0, 0, 0, 0], rfl, 
        .byte pos h, ⟨rfl, (by decide +kernel : (FP.ofInt 1 : F32) = FP.ofBits (littleEndian [0, 0, 0x80, 0x3f]))⟩,
        ⟨rfl, (by decide +kernel : (FP.zero : F32) = FP.ofBits (littleEndian [0, 0, 0, 0]))⟩⟩ .nil, rfl⟩,
    ⟨rfl, by decide +kernel⟩, ⟨rfl, by decide +kernel⟩⟩

example (E : Ext) (hE : E.Lawful) := C116_fft E hE (fftFrame 1) rfl _ _ _ (fftFrame_is 1 (by decide)) (by decide) 4 0 (Or.inl ⟨by decide, rfl, rfl⟩)
  (by decide +kernel) (by simp) (by simp)

example (E : Ext) : ¬ ∃ out, (fftFrame 4).decompress E = .ok out := by
  rw [C116_frame E _ (fun h => by rcases h.1 with h | h <;> cases h)]
  rintro ⟨fs, mx, mn, h1, h2⟩
  obtain ⟨c, e, rfl, rfl, rfl⟩ := fft_payload.2 h1
  obtain ⟨c', e', e1, e2, e3⟩ := fft_payload.2 (fftFrame_is 4 (by decide))
  rw [e] at e'
  cases Except.ok.inj e'
  rcases h2 with h2 | h2
  · rw [e2, e3] at h2
    exact absurd h2 (by decide +kernel)
  · rw [e1] at h2
    have := h2 4 0 (Or.inl ⟨by decide, rfl, rfl⟩) _ List.mem_cons_self
    exact absurd this (by decide)

end Atsc.Bro
