import Verif.Model.Basic
/-!
# UTF-8, independently of the code (RFC 3629)
-/

namespace QP.Spec

/-- A Unicode scalar value. -/
def scalar (c : Nat) : Prop := c < 0xD800 ∨ (0xE000 ≤ c ∧ c < 0x110000)

/-- The UTF-8 encoding of one scalar value. -/
def utf8Char (c : Nat) : Bytes :=
  if c < 0x80 then [BitVec.ofNat 8 c]
  else if c < 0x800 then [BitVec.ofNat 8 (0xC0 + c / 64), BitVec.ofNat 8 (0x80 + c % 64)]
  else if c < 0x10000 then
    [BitVec.ofNat 8 (0xE0 + c / 4096), BitVec.ofNat 8 (0x80 + c / 64 % 64),
     BitVec.ofNat 8 (0x80 + c % 64)]
  else
    [BitVec.ofNat 8 (0xF0 + c / 262144), BitVec.ofNat 8 (0x80 + c / 4096 % 64),
     BitVec.ofNat 8 (0x80 + c / 64 % 64), BitVec.ofNat 8 (0x80 + c % 64)]

/-- A byte string is valid UTF-8 iff it encodes some sequence of scalar values. -/
def ValidUtf8 (bs : Bytes) : Prop :=
  ∃ cs : List Nat, (∀ c ∈ cs, scalar c) ∧ bs = cs.flatMap utf8Char

end QP.Spec
