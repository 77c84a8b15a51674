import Verif.Model.Pbrs.Types
/-!
# Which messages can borrow from the input
-/

namespace QP.Pbrs

/-- The field is generated. -/
def Generated (cfg : Config) (f : Field) : Prop := f.deprecated = false ∨ cfg.addDeprecatedFields = true

/-- The type, alone or as a key or value of a map, is a string or bytes kept as `Cow`. -/
inductive CowType : FieldType → Prop
  | string : CowType .stringCow
  | bytes : CowType .bytesCow
  | key {k : FieldType} (v : FieldType) : CowType k → CowType (.map k v)
  | value (k : FieldType) {v : FieldType} : CowType v → CowType (.map k v)

/-- The type is the message at `j`, or has it as key or value. -/
inductive MessageType (j : MessageIndex) : FieldType → Prop
  | message : MessageType j (.message j)
  | key {k : FieldType} (v : FieldType) : MessageType j k → MessageType j (.map k v)
  | value (k : FieldType) {v : FieldType} : MessageType j v → MessageType j (.map k v)

/-- The field itself borrows: it is a `Cow`, or a packed repeated field of a fixed size type. -/
def BorrowsItself (f : Field) : Prop :=
  CowType f.typ ∨ (f.frequency.isRepeated = true ∧ f.packed = some true ∧ f.typ.isFixedSize = true)

/-- The message at `i` can borrow from the input: a generated field of it does, itself or through the message it holds. -/
inductive Borrows (D : FileDescriptor) (cfg : Config) : MessageIndex → Prop
  | itself {i : MessageIndex} {m : Message} {f : Field} : D.getMessage i = some m → f ∈ m.allFields → Generated cfg f →
      BorrowsItself f → Borrows D cfg i
  | through {i j : MessageIndex} {m : Message} {f : Field} : D.getMessage i = some m → f ∈ m.allFields → Generated cfg f →
      MessageType j f.typ → Borrows D cfg j → Borrows D cfg i

/-- No name in the type is unresolved. -/
def FieldType.noNames : FieldType → Prop
  | .messageOrEnum _ => False
  | .map k v => k.noNames ∧ v.noNames
  | _ => True

/-- All message types used in fields exist, and there are no unresolved names (`resolve_types` succeeded, C52). -/
def RefsOk (D : FileDescriptor) : Prop :=
  ∀ i m, D.getMessage i = some m → ∀ f ∈ m.allFields, (∀ j, MessageType j f.typ → (D.getMessage j).isSome) ∧ f.typ.noNames

/-- Only repeated fields of types that can be packed are packed. -/
def PackedSane (D : FileDescriptor) : Prop :=
  ∀ i m, D.getMessage i = some m → ∀ f ∈ m.allFields, f.packed = some true →
    f.frequency.isRepeated = true ∧ f.typ ≠ .string_ ∧ f.typ ≠ .bytes_

/-- Only fields of message types are boxed (C49). -/
def BoxedSane (D : FileDescriptor) : Prop :=
  ∀ i m, D.getMessage i = some m → ∀ f ∈ m.allFields, f.boxed = true → ∃ j, f.typ = .message j

end QP.Pbrs
