import Verif.Spec.Rewrite
import Verif.Spec.Scopes
import Verif.Spec.Borrow
/-!
# What compiling a schema does to it
-/

namespace QP.Pbrs

/-- The fields of the message at `i`, and those of each of its oneofs. -/
def FileDescriptor.fieldsAt (D : FileDescriptor) (i : MessageIndex) : Option (List Field × List (List Field)) :=
  (D.getMessage i).map fun m => (m.fields, m.oneofs.map (·.fields))

/-- `D'` has the same messages and oneofs as `D`, at the same positions, with each field `f` of the message at `i` replaced
by `H i f`. -/
def Via (D D' : FileDescriptor) (H : MessageIndex → Field → Field) : Prop :=
  ∀ i, D'.fieldsAt i = (D.fieldsAt i).map fun p => (p.1.map (H i), p.2.map (·.map (H i)))

/-- The owned version of a type that is not a map. -/
def FieldType.ownedOne : FieldType → FieldType
  | .stringCow => .string_
  | .bytesCow => .bytes_
  | t => t

/-- The owned version of a type: `String` for `Cow<str>`, `Vec<u8>` for `Cow<[u8]>`, also in maps. -/
def FieldType.owned : FieldType → FieldType
  | .map k v => .map k.ownedOne v.ownedOne
  | t => t.ownedOne

/-- The type is no map, or a map whose key and value types are no maps. -/
def FieldType.flat : FieldType → Bool
  | .map k v => !k.isMap && !v.isMap
  | _ => true

/-- The packing of a field of a message of the file: in proto3 repeated fields are packed unless they say otherwise, and
fields that are no scalars never are. -/
def packing (s : Syntax) (f : Field) (t : FieldType) : Option Bool :=
  if t.isPrimitive = false then none
  else if s = .proto3 ∧ f.packed = none ∧ f.frequency.isRepeated = true then some true
  else f.packed

/-- What field `f` of message `m`, at position `i` of the parsed file `D`, has become. -/
structure FieldCompiled (D : FileDescriptor) (cfg : Config) (i : MessageIndex) (m : Message) (f f' : Field) : Prop where
  number : f'.number = f.number
  deprecated : f'.deprecated = f.deprecated
  default : f'.default.isSome = f.default.isSome
  /-- The type is what the name means, made owned if that is wanted. -/
  typ : ∃ t, ResolvesTo D m f.typ t ∧ f'.typ = (if cfg.dontUseCow then t.owned else t)
  /-- The frequency is kept, or the field holds a message, is boxed, and was made optional. -/
  frequency : f'.frequency = f.frequency ∨ ((∃ j, f'.typ = .message j) ∧ f'.boxed = true ∧
    f.frequency.isRepeated = false ∧ f'.frequency.isOptional = true)
  /-- A field that was made optional is so in the syntax of its label. -/
  label : f'.frequency = f.frequency ∨ f'.frequency = f.frequency.optional
  /-- Only optional fields that hold messages are boxed. -/
  boxed : f'.boxed = f.boxed ∨ ((∃ j, f'.typ = .message j) ∧ f'.frequency.isOptional = true)
  /-- In the messages of the file (not in nested ones) the packing is made explicit. -/
  packed : f'.packed = if i.length = 1 then packing D.syntax_ f f'.typ else f.packed

/-- The name or the number of the field is reserved in the message. -/
def ReservedIn (m : Message) (f : Field) : Prop :=
  (∃ names, m.reservedNames = some names ∧ f.name ∈ names) ∨ (∃ nums, m.reservedNums = some nums ∧ f.number ∈ nums)

/-- The field's type is an enum (by the name `n`, used in `m`) and the field's default is the name of none of its values. -/
def BadEnumDefault (D : FileDescriptor) (m : Message) (f : Field) : Prop :=
  ∃ e en d, ResolvesTo D m f.typ (.enum e) ∧ D.getEnum e = some en ∧ f.default = some d ∧ d ∉ en.fields.map (·.1)

/-- A type as the parser makes it, no map: a scalar, a `Cow`, or a name. -/
def FieldType.rawOne : FieldType → Bool
  | .message _ | .enum _ | .map _ _ | .string_ | .bytes_ => false
  | _ => true

/-- A type as the parser makes it. -/
def FieldType.raw : FieldType → Bool
  | .map k v => k.rawOne && v.rawOne
  | t => t.rawOne

/-- A schema as the parser makes it: types are not yet resolved, nothing is boxed, `map<…>` fields and only they have the
frequency "map" (a oneof cannot hold one). -/
structure Parsed (D : FileDescriptor) : Prop where
  raw : ∀ i m, D.getMessage i = some m → ∀ f ∈ m.allFields, f.typ.raw = true
  boxed : ∀ i m, D.getMessage i = some m → ∀ f ∈ m.allFields, f.boxed = false
  map : ∀ i m, D.getMessage i = some m → ∀ f ∈ m.fields, f.frequency.isMap = f.typ.isMap

/-- What pb-rs takes for granted: field numbers are legal and distinct in each message. -/
structure Numbered (D : FileDescriptor) : Prop where
  range : ∀ i m, D.getMessage i = some m → ∀ f ∈ m.allFields, 0 < f.number ∧ f.number < 2 ^ 29
  distinct : ∀ i m, D.getMessage i = some m → (m.allFields.map (·.number)).Nodup

/-- In nested messages the option `packed = true` is used on scalar and enum fields only. (In the messages of the file
pb-rs itself drops it from other fields.) -/
def NestedPackedOk (D : FileDescriptor) : Prop :=
  ∀ i m, 1 < i.length → D.getMessage i = some m → ∀ f ∈ m.allFields, f.packed = some true →
    ∀ t, ResolvesTo D m f.typ t → t.isPrimitive = true

end QP.Pbrs
