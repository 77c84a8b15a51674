import Verif.Model.Gen
import Verif.Spec.Wire
import Verif.Spec.Utf8
/-!
# What a generated message is, and how it lies on the wire

* `WellTyped`: the values a generated Rust type has;
* `encMsg`: the wire form of a value, as a sequence of records (tag, payload), taken from the
  protobuf encoding guide and independent of the generated `write_message`;
* `obs`: what a user can see of a value: the elements of a `PackedFixed`, not whether it borrows.
-/

namespace QP.Gen
open QP.Pbrs Spec

/-! ## Well-formed schemas -/

/-- Every field number is legal, `map<…>` types are used for map fields only, only primitive
repeated fields are packed, a boxed field is optional. (pb-rs establishes the last one, and the
one before it for messages that are not nested: C65, C60.) -/
structure FieldOk (f : Field) : Prop where
  number : 0 < f.number ∧ f.number < 2 ^ 29
  map : f.frequency.isMap = f.typ.isMap
  packed : f.frequency.isRepeated = true → f.isPacked = true → f.typ.isPrimitive = true
  boxed : f.boxed = true → f.frequency.isOptional = true

/-- The same for a variant of a oneof. -/
structure VariantOk (f : Field) : Prop where
  number : 0 < f.number ∧ f.number < 2 ^ 29

/-- A member of a well-formed message. -/
def MemberOk : Member → Prop
  | .field f => FieldOk f
  | .oneof fs => ∀ f ∈ fs, VariantOk f

/-- A well-formed message: its members are, and no two of its fields (oneof variants included) have
the same number. -/
structure MessageOk (cfg : Config) (m : Message) : Prop where
  members : ∀ mem ∈ members cfg m, MemberOk mem
  distinct : ((arms cfg m).map (·.field.number)).Nodup

/-- A well-formed schema. -/
def SchemaOk (C : Ctx) : Prop := ∀ idx m, C.D.getMessage idx = Option.some m → MessageOk C.cfg m

/-! ## Values -/

/-- `v` is a value of (the Rust type of) field type `t`; `sub m` are the values of message `m`.
Enum values are the declared ones; strings are UTF-8. -/
def HasType (C : Ctx) (sub : MessageIndex → RVal → Prop) (t : FieldType) (v : RVal) : Prop :=
  match t with
  | .int32 | .uint32 | .sint32 | .fixed32 | .sfixed32 | .float => ∃ x, v = .w32 x
  | .int64 | .uint64 | .sint64 | .fixed64 | .sfixed64 | .double => ∃ x, v = .w64 x
  | .bool => ∃ b, v = .bool b
  | .enum e => ∃ x, v = .w32 x ∧ x ∈ C.enumNums e
  | .stringCow | .string_ => ∃ b, v = .bytes b ∧ ValidUtf8 b
  | .bytesCow | .bytes_ => ∃ b, v = .bytes b
  | .message m => sub m v
  | .map _ _ | .messageOrEnum _ => False

/-- A `PackedFixed` holding whole numbers: a borrowed buffer is a multiple of `k` bytes long. -/
def PfOk {k : Nat} (p : PackedFixed (BitVec (8 * k))) : Prop :=
  ∀ b, p = .borrowed b → k ∣ b.length

/-- `v` is a value of the Rust type of struct field `f`. `Q` may restrict fields without presence
(proto3 scalars that are neither `optional` nor `repeated`). -/
def FieldTyped (C : Ctx) (Q : Field → RVal → Prop) (sub : MessageIndex → RVal → Prop) (f : Field)
    (v : RVal) : Prop :=
  match f.frequency.generated with
  | .singular =>
    if f.frequency.isOptional then v = .none ∨ ∃ x, v = .some x ∧ HasType C sub f.typ x
    else HasType C sub f.typ v ∧ (f.hasPresence = false → Q f v)
  | .arrayLike =>
    if isPackedFixed f then
      if f.typ.wireTypeNumNonPacked = 1 then ∃ p, v = .pf64 p ∧ PfOk p
      else ∃ p, v = .pf32 p ∧ PfOk p
    else ∃ l, v = .vec l ∧ ∀ x ∈ l, HasType C sub f.typ x
  | .map =>
    ∃ k t l, f.typ = .map k t ∧ v = .map l ∧
      (∀ e ∈ l, HasType C sub k e.1 ∧ HasType C sub t e.2) ∧
      l.Pairwise (fun a b => keyEq a.1 b.1 = false)

/-- `v` is a value of a struct member. -/
def MemberTyped (C : Ctx) (Q : Field → RVal → Prop) (sub : MessageIndex → RVal → Prop)
    (mem : Member) (v : RVal) : Prop :=
  match mem with
  | .field f => FieldTyped C Q sub f v
  | .oneof fs => v = .none ∨ ∃ i f x, fs[i]? = Option.some f ∧ v = .choice i x ∧ HasType C sub f.typ x

/-- `v` is a value of message `idx`, nested at most `depth` deep. -/
def WellTyped (C : Ctx) (Q : Field → RVal → Prop) : (depth : Nat) → MessageIndex → RVal → Prop
  | 0, _, _ => False
  | n + 1, idx, v => ∃ m slots, C.D.getMessage idx = Option.some m ∧ v = .struct slots ∧
      slots.length = (members C.cfg m).length ∧
      ∀ p ∈ (members C.cfg m).zip slots, MemberTyped C Q (WellTyped C Q n) p.1 p.2

/-- No restriction on fields without presence. -/
def AnyValue : Field → RVal → Prop := fun _ _ => True

/-- A field without presence that equals its default *is* the zero of its type: excludes `-0.0`
(which equals `0.0`) and custom defaults on such fields. -/
def Restorable (C : Ctx) (f : Field) (v : RVal) : Prop :=
  scalarEq f.typ v (fieldDefault C f) = true → v = typDefault C f.typ ∧ v = fieldDefault C f

/-- A field without presence that has no `default` option and is not `-0.0`. -/
def Plain (f : Field) (v : RVal) : Prop :=
  f.default = Option.none ∧ (f.typ = .float → v ≠ .w32 0x80000000#32) ∧
    (f.typ = .double → v ≠ .w64 0x8000000000000000#64)

/-! ## The wire form -/

/-- A `sint32` as written: the zigzag number, as an `i32` sign-extended to 64 bits. (The encoding
guide has `zigzag x` itself; see C07.) -/
def sint32Wire (x : BitVec 32) : Nat :=
  if zigzag x.toInt < 2 ^ 31 then zigzag x.toInt else zigzag x.toInt + (2 ^ 64 - 2 ^ 32)

/-- The payload of one value of type `t`; `sub m` is the wire form of message `m`. -/
def encTyp (sub : MessageIndex → RVal → Bytes) (t : FieldType) (v : RVal) : Bytes :=
  match t, v with
  | .int32, .w32 x | .enum _, .w32 x => varint (twos64 x.toInt)
  | .int64, .w64 x => varint (twos64 x.toInt)
  | .uint32, .w32 x => varint x.toNat
  | .uint64, .w64 x => varint x.toNat
  | .sint32, .w32 x => varint (sint32Wire x)
  | .sint64, .w64 x => varint (zigzag x.toInt)
  | .bool, .bool b => varint (if b then 1 else 0)
  | .fixed64, .w64 x | .sfixed64, .w64 x | .double, .w64 x => le 8 x.toNat
  | .fixed32, .w32 x | .sfixed32, .w32 x | .float, .w32 x => le 4 x.toNat
  | .stringCow, .bytes b | .string_, .bytes b | .bytesCow, .bytes b | .bytes_, .bytes b =>
    delimited b
  | .message m, v => delimited (sub m v)
  | _, _ => []

/-- The numbers in a `PackedFixed`: those of the vector, or the little-endian numbers in the
borrowed bytes. -/
def pfElems {k : Nat} : PackedFixed (BitVec (8 * k)) → List (BitVec (8 * k))
  | .noDataYet => []
  | .owned l => l
  | .borrowed b =>
    (List.range (b.length / k)).map fun i => BitVec.ofNat _ (leVal ((b.drop (i * k)).take k))

/-- The tag of a field: its number and the wire type of its records (2 when packed). -/
def fieldTag (f : Field) : Nat := Spec.tag f.number.toNat (f.typ.wireTypeNum f.isPacked)

/-- One record of a message: the arm that reads it, and what is read: a value, a whole packed list,
or a one-entry map. -/
abbrev Item := Arm × RVal

/-- The records a member contributes: an absent optional field none, a present one its value; a
repeated field one per element, or one for all when packed (none when empty); a map one per entry;
a oneof its current variant; a field without presence none when it equals its default. -/
def memberItems (C : Ctx) (j : Nat) (mem : Member) (v : RVal) : List Item :=
  match mem with
  | .field f =>
    (match f.frequency.generated with
    | .singular =>
      if f.frequency.isOptional then
        (match v with
        | .some x => [x]
        | _ => [])
      else if f.hasPresence then [v]
      else if scalarEq f.typ v (fieldDefault C f) then [] else [v]
    | .arrayLike =>
      if f.isPacked then
        (match v with
        | .vec l => if l.isEmpty then [] else [v]
        | .pf32 p => if (pfElems p).isEmpty then [] else [v]
        | .pf64 p => if (pfElems p).isEmpty then [] else [v]
        | _ => [])
      else
        (match v with
        | .vec l => l
        | _ => [])
    | .map =>
      (match v with
      | .map l => l.map (fun e => .map [e])
      | _ => [])).map (fun x => (⟨j, f, Option.none⟩, x))
  | .oneof fs =>
    match v with
    | .choice i x =>
      match fs[i]? with
      | Option.some f => [(⟨j, f, Option.some i⟩, x)]
      | Option.none => []
    | _ => []

/-- The payload of a map entry: field 1 is the key, field 2 the value. -/
def entryEnc (sub : MessageIndex → RVal → Bytes) (k t : FieldType) (e : RVal × RVal) : Bytes :=
  varint (Spec.tag 1 (k.wireTypeNum false)) ++ encTyp sub k e.1 ++
    varint (Spec.tag 2 (t.wireTypeNum false)) ++ encTyp sub t e.2

/-- The payload of a record. -/
def itemPayload (sub : MessageIndex → RVal → Bytes) (it : Item) : Bytes :=
  if it.1.choice.isSome then encTyp sub it.1.field.typ it.2
  else match it.1.field.frequency.generated with
    | .singular => encTyp sub it.1.field.typ it.2
    | .arrayLike =>
      if it.1.field.isPacked then
        match it.2 with
        | .vec l => delimited (l.flatMap (encTyp sub it.1.field.typ))
        | .pf32 p => delimited ((pfElems p).flatMap (fun x => le 4 x.toNat))
        | .pf64 p => delimited ((pfElems p).flatMap (fun x => le 8 x.toNat))
        | _ => []
      else encTyp sub it.1.field.typ it.2
    | .map =>
      match it.1.field.typ, it.2 with
      | .map k t, .map [e] => delimited (entryEnc sub k t e)
      | _, _ => []

/-- A record on the wire: tag, payload. -/
def itemEnc (sub : MessageIndex → RVal → Bytes) (it : Item) : Bytes :=
  varint (fieldTag it.1.field) ++ itemPayload sub it

/-- The records of a message value, in declaration order. -/
def msgItems (C : Ctx) (m : Message) (slots : List RVal) : List Item :=
  ((members C.cfg m).zip slots).zipIdx.flatMap fun (p, j) => memberItems C j p.1 p.2

/-- The wire form of a value of message `idx`. -/
def encMsg (C : Ctx) : (depth : Nat) → MessageIndex → RVal → Bytes
  | 0, _, _ => []
  | n + 1, idx, v =>
    match C.D.getMessage idx with
    | Option.none => []
    | Option.some m => (msgItems C m v.slots).flatMap (itemEnc (encMsg C n))

/-! ## Observations -/

mutual
/-- What a user sees of a value: a `PackedFixed` is the list of its numbers, borrowed or not. -/
def RVal.obs : RVal → RVal
  | .w32 x => .w32 x
  | .w64 x => .w64 x
  | .bool b => .bool b
  | .bytes b => .bytes b
  | .none => .none
  | .some v => .some v.obs
  | .vec l => .vec (RVal.obsList l)
  | .pf32 p => .pf32 (.owned (pfElems p))
  | .pf64 p => .pf64 (.owned (pfElems p))
  | .map l => .map (RVal.obsEntries l)
  | .choice i v => .choice i v.obs
  | .struct l => .struct (RVal.obsList l)
/-- `obs` on every element. -/
def RVal.obsList : List RVal → List RVal
  | [] => []
  | v :: l => v.obs :: RVal.obsList l
/-- `obs` on every key and value. -/
def RVal.obsEntries : List (RVal × RVal) → List (RVal × RVal)
  | [] => []
  | (a, b) :: l => (a.obs, b.obs) :: RVal.obsEntries l
end

end QP.Gen
