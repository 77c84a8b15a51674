import Verif.Spec.Wire
/-!
# Well-formed varints and field payloads (protobuf encoding guide)
-/

namespace QP.Spec

/-- One varint, canonical or not: up to nine bytes with the high bit set, then one without. -/
def IsVarint (g : Bytes) : Prop :=
  ∃ (conts : Bytes) (b : Byte), g = conts ++ [b] ∧ conts.length ≤ 9 ∧
    (∀ c ∈ conts, lastByte c = false) ∧ lastByte b = true

/-- What may follow a tag of the given wire type: a varint; eight bytes; a length (a varint, taken
modulo `2^64`) and that many bytes; four bytes. Groups (3, 4) are not supported. -/
inductive Payload : Nat → Bytes → Prop
  | varint {g : Bytes} : IsVarint g → Payload 0 g
  | fixed64 {b : Bytes} : b.length = 8 → Payload 1 b
  | delimited {g body : Bytes} : IsVarint g → varintVal g % 2 ^ 64 = body.length →
      Payload 2 (g ++ body)
  | fixed32 {b : Bytes} : b.length = 4 → Payload 5 b

end QP.Spec
