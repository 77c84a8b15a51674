import Verif.Model.Basic
/-!
# `core::str::from_utf8`

`BytesReader::read_string` (reader.rs 427-433) relies on it. The algorithm below is that of
`core::str::validations::run_utf8_validation` (without its word-at-a-time ASCII fast path, which
does not change the result); the standard library is not part of /repo.
-/

namespace QP

/-- `(b as i8) < -64`: a continuation byte. -/
def utf8Cont (b : Byte) : Bool := 0x80 ≤ b.toNat && b.toNat ≤ 0xBF

/-- The second byte of a three byte sequence is acceptable. -/
def utf8Ok3 (first second : Nat) : Bool :=
  (first == 0xE0 && 0xA0 ≤ second && second ≤ 0xBF) ||
  (0xE1 ≤ first && first ≤ 0xEC && 0x80 ≤ second && second ≤ 0xBF) ||
  (first == 0xED && 0x80 ≤ second && second ≤ 0x9F) ||
  (0xEE ≤ first && first ≤ 0xEF && 0x80 ≤ second && second ≤ 0xBF)

/-- The second byte of a four byte sequence is acceptable. -/
def utf8Ok4 (first second : Nat) : Bool :=
  (first == 0xF0 && 0x90 ≤ second && second ≤ 0xBF) ||
  (0xF1 ≤ first && first ≤ 0xF3 && 0x80 ≤ second && second ≤ 0xBF) ||
  (first == 0xF4 && 0x80 ≤ second && second ≤ 0x8F)

/-- `core::str::from_utf8(bs).is_ok()`. -/
def utf8Ok : Bytes → Bool
  | [] => true
  | b0 :: rest =>
    if b0.toNat < 0x80 then utf8Ok rest
    else if 0xC2 ≤ b0.toNat && b0.toNat ≤ 0xDF then
      match rest with
      | b1 :: rest => utf8Cont b1 && utf8Ok rest
      | _ => false
    else if 0xE0 ≤ b0.toNat && b0.toNat ≤ 0xEF then
      match rest with
      | b1 :: b2 :: rest => utf8Ok3 b0.toNat b1.toNat && utf8Cont b2 && utf8Ok rest
      | _ => false
    else if 0xF0 ≤ b0.toNat && b0.toNat ≤ 0xF4 then
      match rest with
      | b1 :: b2 :: b3 :: rest =>
        utf8Ok4 b0.toNat b1.toNat && utf8Cont b2 && utf8Cont b3 && utf8Ok rest
      | _ => false
    else false


end QP
