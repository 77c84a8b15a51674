import Verif.Spec.Decode
import Verif.Spec.Reads
/-!
# Editing encoded messages

Notions for the compatibility properties: unknown fields, inserting one somewhere in an encoded message,
and decoding on top of an existing value.
-/

namespace QP.Gen
open QP.Pbrs Spec

/-- `b` is a sequence of well-formed fields (known or unknown) of message `m`. -/
def Records (C : Ctx) (m : Message) (b : Bytes) : Prop := ∃ us, Parses (Record C (Denotes C) m) b us

/-- A well-formed field that message `m` does not know: a tag none of its fields has, and a payload of
the tag's wire type. -/
def UnknownRecord (C : Ctx) (m : Message) (r : Bytes) : Prop :=
  ∃ g p, IsVarint g ∧ (∀ a ∈ arms C.cfg m, fieldTag a.field ≠ varintVal g % 2 ^ 32) ∧
    Payload (varintVal g % 8) p ∧ r = g ++ p

/-- Do records of this arm carry one value each? (Not packed, not a map.) -/
def Arm.isValue (a : Arm) : Bool :=
  a.choice.isSome || a.field.boxed ||
    (match a.field.frequency.generated with
     | .singular => true
     | .arrayLike => !a.field.isPacked
     | .map => false)

/-- `b'` is `b` with one unknown field inserted, at the top level of message `idx`, or inside one of its
nested messages, or inside a message that is a map value. The lengths around it are adjusted. -/
inductive Grown (C : Ctx) : MessageIndex → Bytes → Bytes → Prop
  | here {idx : MessageIndex} {m : Message} {a r c : Bytes} : C.D.getMessage idx = Option.some m →
      Records C m a → UnknownRecord C m r → Records C m c → Grown C idx (a ++ c) (a ++ r ++ c)
  | nested {idx sub : MessageIndex} {m : Message} {a g p p' body body' c : Bytes} {arm : Arm} :
      C.D.getMessage idx = Option.some m → Records C m a → Records C m c → arm ∈ arms C.cfg m →
      arm.isValue = true → arm.field.typ = .message sub → IsVarint g →
      fieldTag arm.field = varintVal g % 2 ^ 32 → Delimited p body → Delimited p' body' →
      Grown C sub body body' → Grown C idx (a ++ (g ++ p) ++ c) (a ++ (g ++ p') ++ c)
  | mapValue {idx sub : MessageIndex} {m : Message} {a g p p' x q q' y body body' c : Bytes} {arm : Arm}
      {k : FieldType} {t : Byte} {us vs : List (Bool × RVal)} :
      C.D.getMessage idx = Option.some m → Records C m a → Records C m c → arm ∈ arms C.cfg m →
      arm.choice = Option.none → arm.field.boxed = false → arm.field.frequency.generated = .map →
      arm.field.typ = .map k (.message sub) → IsVarint g →
      fieldTag arm.field = varintVal g % 2 ^ 32 →
      Parses (DecPart C (Denotes C) k (.message sub)) x us → t.toNat / 8 = 2 →
      Parses (DecPart C (Denotes C) k (.message sub)) y vs →
      Delimited p (x ++ (t :: q) ++ y) → Delimited p' (x ++ (t :: q') ++ y) →
      Delimited q body → Delimited q' body' →
      Grown C sub body body' → Grown C idx (a ++ (g ++ p) ++ c) (a ++ (g ++ p') ++ c)

end QP.Gen
