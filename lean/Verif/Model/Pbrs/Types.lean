/-!
# `pb-rs/src/types.rs`: descriptors, and the decisions the code generator takes per field

Rust `String`s are lists of characters. Paths, RPC services, extensions and the textual side of the
output (module paths, derives, lifetimes in the printed text) are not modelled here.
-/

namespace QP.Pbrs

/-- A Rust `String` / `&str`. -/
abbrev Str := List Char

/-- types.rs 23-28, `enum Syntax`. -/
inductive Syntax where
  | proto2
  | proto3
deriving DecidableEq, Repr

/-- types.rs 30-50, `Frequency` with `Proto2Frequency` and `Proto3Frequency` flattened. -/
inductive Frequency where
  | p2optional | p2repeated | p2required | p2map
  | p3optional | p3repeated | p3default | p3map
deriving DecidableEq, Repr

/-- types.rs 52-57, `enum GeneratedType`. -/
inductive GeneratedType where
  | singular
  | arrayLike
  | map
deriving DecidableEq, Repr

namespace Frequency

/-- types.rs 60-66. -/
def isMap : Frequency → Bool
  | p2map | p3map => true
  | _ => false

/-- types.rs 68-74. -/
def isOptional : Frequency → Bool
  | p2optional | p3optional => true
  | _ => false

/-- types.rs 76-82. -/
def isRepeated : Frequency → Bool
  | p2repeated | p3repeated => true
  | _ => false

/-- types.rs 85-95, `impl From<Frequency> for GeneratedType`. -/
def generated (f : Frequency) : GeneratedType :=
  if f.isMap then .map else if f.isRepeated then .arrayLike else .singular

end Frequency

/-- types.rs 97-100, `struct MessageIndex { indexes: Vec<usize> }`. -/
abbrev MessageIndex := List Nat

/-- types.rs 143-147, `struct EnumIndex`. -/
structure EnumIndex where
  msgIndex : MessageIndex
  index : Nat
deriving DecidableEq, Repr

/-- types.rs 160-183, `enum FieldType`. -/
inductive FieldType where
  | int32 | int64 | uint32 | uint64 | sint32 | sint64 | bool
  | enum (e : EnumIndex)
  | fixed64 | sfixed64 | double
  | stringCow | bytesCow | string_ | bytes_
  | message (m : MessageIndex)
  | messageOrEnum (name : Str)
  | fixed32 | sfixed32 | float
  | map (k v : FieldType)
deriving DecidableEq, Repr

namespace FieldType

/-- types.rs 219-229, `is_primitive`. -/
def isPrimitive : FieldType → Bool
  | message _ | map _ _ | stringCow | bytesCow | string_ | bytes_ => false
  | _ => true

/-- types.rs 243-245, `is_map`. -/
def isMap : FieldType → Bool
  | map _ _ => true
  | _ => false

/-- types.rs 255-284, `wire_type_num_non_packed`. The code panics (`unreachable!`) on an unresolved
name; the model then answers 7, which is no wire type. -/
def wireTypeNumNonPacked : FieldType → Nat
  | int32 | sint32 | int64 | sint64 | uint32 | uint64 | bool | enum _ => 0
  | fixed64 | sfixed64 | double => 1
  | stringCow | bytesCow | string_ | bytes_ | message _ | map _ _ => 2
  | fixed32 | sfixed32 | float => 5
  | messageOrEnum _ => 7

/-- types.rs 247-253, `wire_type_num`. -/
def wireTypeNum (t : FieldType) (packed : Bool) : Nat :=
  if packed then 2 else t.wireTypeNumNonPacked

/-- types.rs 311-313, `is_fixed_size`. -/
def isFixedSize (t : FieldType) : Bool :=
  t.wireTypeNumNonPacked == 1 || t.wireTypeNumNonPacked == 5

/-- types.rs 346-352, `message`. -/
def asMessage : FieldType → Option MessageIndex
  | message m => some m
  | _ => none

end FieldType

/-- types.rs 517-527, `struct Field`; `number` is an `i32`. -/
structure Field where
  name : Str
  frequency : Frequency
  typ : FieldType
  number : Int
  default : Option Str := none
  packed : Option Bool := none
  boxed : Bool := false
  deprecated : Bool := false
deriving DecidableEq, Repr

/-- types.rs 2231-2238, `struct OneOf`. -/
structure OneOf where
  name : Str
  fields : List Field
  package : Str := []
  module : Str := []
  imported : Bool := false
deriving DecidableEq, Repr

/-- types.rs 2117-2129, `struct Enumerator` (`path` and `import`, which nothing uses, dropped; of the qualified fields only
the names are kept, the numbers are not used). -/
structure Enumerator where
  name : Str
  fields : List (Str × Int)
  imported : Bool := false
  package : Str := []
  module : Str := []
  index : EnumIndex := ⟨[], 0⟩
  partiallyQualified : List Str := []
  fullyQualified : List Str := []
deriving DecidableEq, Repr

/-- types.rs 1264-1281, `struct Message` (paths and `extensions` dropped). -/
structure Message where
  name : Str
  fields : List Field
  oneofs : List OneOf := []
  reservedNums : Option (List Int) := none
  reservedNames : Option (List Str) := none
  imported : Bool := false
  package : Str := []
  messages : List Message := []
  enums : List Enumerator := []
  module : Str := []
  index : MessageIndex := []

/-- types.rs 2559-2576, `struct FileDescriptor` (import paths, RPC services and extends dropped). -/
structure FileDescriptor where
  package : Str := []
  syntax_ : Syntax := .proto2
  messages : List Message := []
  enums : List Enumerator := []
  module : Str := []
  owned : Bool := false

/-- types.rs 2538-2557, `struct Config` (without the input and output files, `no_output`, the RPC generator and
`custom_includes`). -/
structure Config where
  dontUseCow : Bool := false
  addDeprecatedFields : Bool := false
  errorCycle : Bool := false
  generateGetters : Bool := false
  singleModule : Bool := false
  headers : Bool := true
  customStructDerive : List Str := []
  customRepr : Option Str := none
  owned : Bool := false
  nostd : Bool := false
  hashbrown : Bool := false
  genInfo : Bool := false
deriving DecidableEq, Repr

/-- types.rs 109-118, the `fold` of `MessageIndex::get_message` below a first message. -/
def Message.descend (m : Message) : List Nat → Option Message
  | [] => some m
  | i :: is => m.messages[i]?.bind fun m' => m'.descend is

/-- types.rs 109-118, `MessageIndex::get_message`; `none` is the `expect` panic. -/
def FileDescriptor.getMessage (D : FileDescriptor) : MessageIndex → Option Message
  | [] => none
  | i :: is => D.messages[i]?.bind fun m => m.descend is

/-- types.rs 150-157, `EnumIndex::get_enum`; `none` is a panic. -/
def FileDescriptor.getEnum (D : FileDescriptor) (e : EnumIndex) : Option Enumerator :=
  if e.msgIndex.isEmpty then D.enums[e.index]?
  else (D.getMessage e.msgIndex).bind fun m => m.enums[e.index]?

/-- types.rs 3152-3154, `tag(number: u32, typ, packed)`: `number << 3 | wire_type`. -/
def tag (number : BitVec 32) (typ : FieldType) (packed : Bool) : BitVec 32 :=
  number <<< 3 ||| BitVec.ofNat 32 (typ.wireTypeNum packed)

/-- types.rs 13-21, the generator's own `sizeof_varint(v: u32)`. -/
def sizeofVarint (v : BitVec 32) : Nat :=
  if v ≤ 0x7F#32 then 1
  else if v ≤ 0x3FFF#32 then 2
  else if v ≤ 0x1FFFFF#32 then 3
  else if v ≤ 0xFFFFFFF#32 then 4
  else 5

namespace Field

/-- types.rs 773-775, `packed`. -/
def isPacked (f : Field) : Bool := f.packed.getD false

/-- types.rs 808-810, `Field::tag`; `self.number as u32`. -/
def tag (f : Field) : BitVec 32 := Pbrs.tag (BitVec.ofInt 32 f.number) f.typ f.isPacked

/-- The recurring test `self.deprecated && !config.add_deprecated_fields` (types.rs 861, 942, 1094,
…), negated: is the field generated at all? -/
def visible (cfg : Config) (f : Field) : Bool := !f.deprecated || cfg.addDeprecatedFields

/-- types.rs 1051-1080, `has_presence`. -/
def hasPresence (f : Field) : Bool :=
  match f.frequency with
  | .p2repeated => false
  | .p2optional | .p2required | .p2map => !f.typ.isMap
  | .p3repeated => false
  | .p3optional | .p3default | .p3map =>
    if f.typ.isMap then false
    else if f.typ.asMessage.isSome then true
    else f.frequency == .p3optional

/-- types.rs 530-551, `has_valid_visible_custom_default`. -/
def hasValidVisibleCustomDefault (D : FileDescriptor) (cfg : Config) (f : Field) : Bool :=
  f.visible cfg && D.syntax_ == .proto2
    && (f.frequency == .p2optional || f.frequency == .p2required)
    && !f.typ.asMessage.isSome && f.default.isSome

/-- types.rs 553-562, `must_generate_impl_default`. -/
def mustGenerateImplDefault (D : FileDescriptor) (cfg : Config) (f : Field) : Bool :=
  f.hasValidVisibleCustomDefault D cfg && f.frequency == .p2required

end Field

namespace Message

/-- `all_fields` (types.rs 2066-2072): the fields, then those of the oneofs. -/
def allFields (m : Message) : List Field := m.fields ++ m.oneofs.flatMap (·.fields)

mutual
/-- types.rs 1395-1399, `is_unit`. -/
def isUnit : Message → Bool
  | ⟨_, fields, oneofs, _, _, _, _, messages, _, _, _⟩ =>
    fields.isEmpty && oneofs.isEmpty && allUnit messages
/-- types.rs 1398, `self.messages.iter().all(|m| m.is_unit())`. -/
def allUnit : List Message → Bool
  | [] => true
  | m :: ms => m.isUnit && allUnit ms
end

/-- types.rs 1496-1500, `must_generate_impl_default`. -/
def mustGenerateImplDefault (D : FileDescriptor) (cfg : Config) (m : Message) : Bool :=
  m.fields.any (·.mustGenerateImplDefault D cfg)

end Message

end QP.Pbrs
