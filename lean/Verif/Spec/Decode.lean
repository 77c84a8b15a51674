import Verif.Spec.Message
import Verif.Spec.Fields
/-!
# What a byte string means as a message

A declarative decoder: which values a byte string denotes. It is a grammar of varints, fixed-width
numbers, length-delimited payloads and records, and does not mention readers, positions, limits,
loops or fuel. Where the crate deviates from the protobuf specification (lengths modulo `2^32`, the
last chunk of a packed field wins, …) the grammar says what the crate does.
-/

namespace QP.Gen
open QP.Pbrs Spec

/-- `b` is a sequence of pieces, of which `R` says what they denote. -/
inductive Parses {U : Type} (R : Bytes → U → Prop) : Bytes → List U → Prop
  | nil : Parses R [] []
  | cons {p q : Bytes} {u : U} {us : List U} : R p u → Parses R q us → Parses R (p ++ q) (u :: us)

/-- A length (a varint, taken modulo `2^32`) and that many bytes. -/
def Delimited (p body : Bytes) : Prop :=
  ∃ g, IsVarint g ∧ varintVal g % 2 ^ 32 = body.length ∧ p = g ++ body

/-- `p` denotes the value `x` of type `t`; `sub m` says what denotes which value of message `m`. -/
def DecTyp (C : Ctx) (sub : MessageIndex → Bytes → RVal → Prop) (t : FieldType) (p : Bytes)
    (x : RVal) : Prop :=
  match t with
  | .int32 | .uint32 => IsVarint p ∧ x = .w32 (BitVec.ofNat 32 (varintVal p))
  | .int64 | .uint64 => IsVarint p ∧ x = .w64 (BitVec.ofNat 64 (varintVal p))
  | .sint32 => IsVarint p ∧ ∃ y, x = .w32 y ∧ zigzag y.toInt = varintVal p % 2 ^ 32
  | .sint64 => IsVarint p ∧ ∃ y, x = .w64 y ∧ zigzag y.toInt = varintVal p % 2 ^ 64
  | .bool => IsVarint p ∧ x = .bool (decide (varintVal p % 2 ^ 32 ≠ 0))
  | .enum e => IsVarint p ∧
      ((BitVec.ofNat 32 (varintVal p) ∈ C.enumNums e ∧ x = .w32 (BitVec.ofNat 32 (varintVal p))) ∨
       (BitVec.ofNat 32 (varintVal p) ∉ C.enumNums e ∧ x = typDefault C t))
  | .fixed64 | .sfixed64 | .double => p.length = 8 ∧ x = .w64 (BitVec.ofNat 64 (leVal p))
  | .fixed32 | .sfixed32 | .float => p.length = 4 ∧ x = .w32 (BitVec.ofNat 32 (leVal p))
  | .stringCow | .string_ => ∃ body, Delimited p body ∧ ValidUtf8 body ∧ x = .bytes body
  | .bytesCow | .bytes_ => ∃ body, Delimited p body ∧ x = .bytes body
  | .message m => ∃ body, Delimited p body ∧ sub m body x
  | .map _ _ | .messageOrEnum _ => False

/-- A piece of a map entry: one byte whose upper five bits are 1 (then a key follows) or 2 (then a
value follows; `true` marks values). -/
def DecPart (C : Ctx) (sub : MessageIndex → Bytes → RVal → Prop) (k v : FieldType) (p : Bytes)
    (u : Bool × RVal) : Prop :=
  ∃ (t : Byte) (q : Bytes), p = t :: q ∧
    ((t.toNat / 8 = 1 ∧ u.1 = false ∧ DecTyp C sub k q u.2) ∨
     (t.toNat / 8 = 2 ∧ u.1 = true ∧ DecTyp C sub v q u.2))

/-- The last of the keys (values) of a map entry, or the default. -/
def lastPart (which : Bool) (d : RVal) (us : List (Bool × RVal)) : RVal :=
  ((us.filter (·.1 == which)).getLast?.map (·.2)).getD d

/-- `p` denotes `x` as payload of a record of arm `a`: a value; a packed list (whole numbers only, when
fixed-size: what is left over is dropped); or a map entry. -/
def DecArm (C : Ctx) (sub : MessageIndex → Bytes → RVal → Prop) (a : Arm) (p : Bytes) (x : RVal) : Prop :=
  if a.choice.isSome || a.field.boxed then DecTyp C sub a.field.typ p x
  else match a.field.frequency.generated with
    | .singular => DecTyp C sub a.field.typ p x
    | .arrayLike =>
      if a.field.isPacked then
        ∃ body, Delimited p body ∧
          if a.field.typ.isFixedSize then
            if a.field.typ.wireTypeNumNonPacked = 1 then
              x = .pf64 (.borrowed (body.take (body.length / 8 * 8)))
            else x = .pf32 (.borrowed (body.take (body.length / 4 * 4)))
          else ∃ l, Parses (DecTyp C sub a.field.typ) body l ∧ x = .vec l
      else DecTyp C sub a.field.typ p x
    | .map =>
      ∃ k v body us, a.field.typ = .map k v ∧ Delimited p body ∧ Parses (DecPart C sub k v) body us ∧
        x = .map [(lastPart false (typDefault C k) us, lastPart true (typDefault C v) us)]

/-- A record of message `m`: the tag of one of its fields and a payload of that field (`some`); or a
tag of no field and any payload of the tag's wire type (`none`). Tags are taken modulo `2^32`. -/
def Record (C : Ctx) (sub : MessageIndex → Bytes → RVal → Prop) (m : Message) (r : Bytes)
    (u : Option Item) : Prop :=
  ∃ g p, IsVarint g ∧ r = g ++ p ∧
    ((∃ a ∈ arms C.cfg m, ∃ x, fieldTag a.field = varintVal g % 2 ^ 32 ∧ DecArm C sub a p x ∧
        u = Option.some (a, x)) ∨
     ((∀ a ∈ arms C.cfg m, fieldTag a.field ≠ varintVal g % 2 ^ 32) ∧
        Payload (varintVal g % 8) p ∧ u = Option.none))

/-- The value of a struct member after the records `its` of that member, in order, starting from
`d`: the last one for singular fields, oneofs and packed fields; all of them, appended, for other
repeated fields; inserted in order for maps. -/
def memberAfter (d : RVal) (its : List Item) : RVal :=
  match its.getLast? with
  | Option.none => d
  | Option.some (a, x) =>
    match a.choice with
    | Option.some i => .choice i x
    | Option.none =>
      if a.field.boxed then .some x
      else match a.field.frequency.generated with
        | .singular => if a.field.frequency.isOptional then .some x else x
        | .arrayLike =>
          if a.field.isPacked then x
          else match d with
            | .vec l => .vec (l ++ its.map (·.2))
            | o => o
        | .map =>
          match d with
          | .map l => .map (its.foldl (fun l it =>
              match it.2 with
              | .map [(k, v)] => insertKV k v l
              | _ => l) l)
          | o => o

/-- All members of a struct after some records, in wire order. -/
def slotsAfter (d : List RVal) (us : List (Option Item)) : List RVal :=
  d.mapIdx fun j v => memberAfter v ((us.filterMap id).filter (·.1.slot == j))

/-- `b` is a sequence of records of message `m` that takes the struct members from `d` to `slots`. -/
def Merges (C : Ctx) (sub : MessageIndex → Bytes → RVal → Prop) (m : Message) (d : List RVal)
    (b : Bytes) (slots : List RVal) : Prop :=
  ∃ us, Parses (Record C sub m) b us ∧ slots = slotsAfter d us

/-- `b` denotes the value `v` of message `idx`, nested at most `depth` deep. A message without
members ignores its bytes. -/
def DecMsg (C : Ctx) : (depth : Nat) → MessageIndex → Bytes → RVal → Prop
  | 0, _, _, _ => False
  | n + 1, idx, b, v => ∃ m, C.D.getMessage idx = Option.some m ∧
      if m.isUnit then v = C.dflt idx
      else ∃ slots, Merges C (DecMsg C n) m (C.dflt idx).slots b slots ∧ v = .struct slots

/-- `b` denotes the value `v` of message `idx`. -/
def Denotes (C : Ctx) (idx : MessageIndex) (b : Bytes) (v : RVal) : Prop := ∃ depth, DecMsg C depth idx b v

end QP.Gen
