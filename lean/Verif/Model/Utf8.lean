import Verif.Model.Bincode
/- UTF-8, as the Rust standard library reads and writes it. -/
namespace Atsc

/-- The bytes of a text: UTF-8, as in every Rust string. -/
def textBytes (cs : List Char) : Bytes := cs.flatMap String.utf8EncodeChar

/-- A continuation byte of UTF-8. -/
def utf8Cont (b : UInt8) : Bool := 0x80 ≤ b ∧ b ≤ 0xBF

/-- `std::str::from_utf8` (used by `BufRead::lines` for a line, /repo/vsri/src/lib.rs:464, and by the csv crate for a field, /repo/atsc/src/csv.rs:42,57,87): `none` when the bytes are not UTF-8 (overlong forms, surrogates and values above U+10FFFF
are refused). -/
def utf8Dec : Bytes → Option (List Char)
  | [] => some []
  | a :: l =>
    if a < 0x80 then (utf8Dec l).map (Char.ofNat a.toNat :: ·)
    else match l with
      | [] => none
      | b :: l2 =>
        if 0xC2 ≤ a ∧ a ≤ 0xDF ∧ utf8Cont b then (utf8Dec l2).map (Char.ofNat ((a.toNat - 0xC0) * 64 + (b.toNat - 0x80)) :: ·)
        else match l2 with
          | [] => none
          | c :: l3 =>
            if 0xE0 ≤ a ∧ a ≤ 0xEF ∧ utf8Cont b ∧ utf8Cont c ∧ (a = 0xE0 → 0xA0 ≤ b) ∧ (a = 0xED → b ≤ 0x9F) then
              (utf8Dec l3).map (Char.ofNat ((a.toNat - 0xE0) * 4096 + (b.toNat - 0x80) * 64 + (c.toNat - 0x80)) :: ·)
            else match l3 with
              | [] => none
              | d :: l4 =>
                if 0xF0 ≤ a ∧ a ≤ 0xF4 ∧ utf8Cont b ∧ utf8Cont c ∧ utf8Cont d ∧ (a = 0xF0 → 0x90 ≤ b) ∧ (a = 0xF4 → b ≤ 0x8F) then
                  (utf8Dec l4).map (Char.ofNat ((a.toNat - 0xF0) * 262144 + (b.toNat - 0x80) * 4096 + (c.toNat - 0x80) * 64 + (d.toNat - 0x80)) :: ·)
                else none

end Atsc
