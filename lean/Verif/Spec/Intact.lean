import Verif.Spec.Decode
/-!
# Messages whose records are complete

`Intact` says of the bytes of a message that they can be divided into records, each with its tag and
its payload, all the way down: no record, packed list, map entry or nested message runs over the end
of what contains it. It says nothing about contents: strings may be invalid UTF-8, map entries may
have unknown parts, wire types may be unknown. Like `Spec/Decode.lean` it does not mention readers.
-/

namespace QP.Gen
open QP.Pbrs Spec

/-- A type whose values are not messages (nor maps, nor unresolved). -/
def FlatType : FieldType → Prop
  | .message _ | .map _ _ | .messageOrEnum _ => False
  | _ => True

/-- `b` is a sequence of pieces of the kind `R`. -/
inductive Pieces (R : Bytes → Prop) : Bytes → Prop
  | nil : Pieces R []
  | cons {p q : Bytes} : R p → Pieces R q → Pieces R (p ++ q)

/-- `p` is complete as a value of type `t`: a varint, as many bytes as the type has, or a length and
that many bytes; those of a message satisfy `sub`. -/
def IntactTyp (sub : MessageIndex → Bytes → Prop) (t : FieldType) (p : Bytes) : Prop :=
  match t with
  | .int32 | .uint32 | .int64 | .uint64 | .sint32 | .sint64 | .bool | .enum _ => IsVarint p
  | .fixed64 | .sfixed64 | .double => p.length = 8
  | .fixed32 | .sfixed32 | .float => p.length = 4
  | .stringCow | .string_ | .bytesCow | .bytes_ => ∃ body, Delimited p body
  | .message m => ∃ body, Delimited p body ∧ sub m body
  | .map _ _ | .messageOrEnum _ => False

/-- A complete part of a map entry: a byte, and a key or a value if it announces one. -/
def IntactPart (sub : MessageIndex → Bytes → Prop) (k v : FieldType) (p : Bytes) : Prop :=
  ∃ (t : Byte) (q : Bytes), p = t :: q ∧
    ((t.toNat / 8 = 1 ∧ IntactTyp sub k q) ∨ (t.toNat / 8 = 2 ∧ IntactTyp sub v q) ∨
     (t.toNat / 8 ≠ 1 ∧ t.toNat / 8 ≠ 2))

/-- A complete payload of a record of arm `a`. -/
def IntactArm (sub : MessageIndex → Bytes → Prop) (a : Arm) (p : Bytes) : Prop :=
  if a.choice.isSome || a.field.boxed then IntactTyp sub a.field.typ p
  else match a.field.frequency.generated with
    | .singular => IntactTyp sub a.field.typ p
    | .arrayLike =>
      if a.field.isPacked then
        ∃ body, Delimited p body ∧
          (a.field.typ.isFixedSize = false → Pieces (IntactTyp sub a.field.typ) body)
      else IntactTyp sub a.field.typ p
    | .map => ∃ k v body, a.field.typ = .map k v ∧ Delimited p body ∧ Pieces (IntactPart sub k v) body

/-- A complete record of message `m`: a tag and a payload; nothing is asked of the payload if the
wire type is none of those that are supported. -/
def IntactRecord (C : Ctx) (sub : MessageIndex → Bytes → Prop) (m : Message) (r : Bytes) : Prop :=
  ∃ g p, IsVarint g ∧ r = g ++ p ∧
    ((∃ a ∈ arms C.cfg m, fieldTag a.field = varintVal g % 2 ^ 32 ∧ IntactArm sub a p) ∨
     ((∀ a ∈ arms C.cfg m, fieldTag a.field ≠ varintVal g % 2 ^ 32) ∧
        (Payload (varintVal g % 8) p ∨ varintVal g % 8 ∈ [3, 4, 6, 7])))

/-- The bytes of a message of type `idx`, nested at most `depth` deep. -/
def IntactMsg (C : Ctx) : (depth : Nat) → MessageIndex → Bytes → Prop
  | 0, _, _ => False
  | n + 1, idx, b => ∃ m, C.D.getMessage idx = Option.some m ∧
      (m.isUnit = true ∨ Pieces (IntactRecord C (IntactMsg C n) m) b)

/-- The bytes of a message of type `idx` are complete. -/
def Intact (C : Ctx) (idx : MessageIndex) (b : Bytes) : Prop := ∃ depth, IntactMsg C depth idx b

/-- The arm reads no message: neither directly nor in a map entry. -/
def FlatArm (a : Arm) : Prop :=
  (FlatType a.field.typ ∧ (a.choice = Option.none → a.field.frequency.generated ≠ .map)) ∨
    ∃ k v, a.field.typ = .map k v ∧ FlatType k ∧ FlatType v ∧
      a.choice = Option.none ∧ a.field.boxed = false ∧ a.field.frequency.generated = .map

/-- *The nested messages of `b` are complete*: `b` itself may be anything (it may break off, or turn
into garbage), but wherever, after records that make sense, there is the tag of a field that holds a
message (or a map entry that does), a complete payload for it follows. -/
def NestedIntact (C : Ctx) (idx : MessageIndex) (b : Bytes) : Prop :=
  ∀ m, C.D.getMessage idx = Option.some m →
    ∀ pre us g q a, b = pre ++ g ++ q → Parses (Record C (Denotes C) m) pre us → IsVarint g →
      a ∈ arms C.cfg m → fieldTag a.field = varintVal g % 2 ^ 32 → ¬ FlatArm a →
      ∃ p rest, q = p ++ rest ∧ IntactArm (Intact C) a p

end QP.Gen
