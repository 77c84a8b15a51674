import Verif.Spec.Grammar
/-!
# Schemas with names that are identifiers
-/

namespace QP.Pbrs
open Grammar

/-- A non-negative `i32`. -/
def Num32 (i : Int) : Prop := 0 ≤ i ∧ i < 2 ^ 31

/-- All type names are possibly qualified names; no type has been resolved. -/
def TypeNamed : FieldType → Prop
  | .messageOrEnum n => Name n
  | .map k v => TypeNamed k ∧ TypeNamed v
  | .message _ | .enum _ | .string_ | .bytes_ => False
  | _ => True

structure FieldNamed (f : Field) : Prop where
  name : Word f.name
  typ : TypeNamed f.typ
  number : Num32 f.number

structure OneofNamed (o : OneOf) : Prop where
  name : Word o.name
  fields : ∀ f ∈ o.fields, FieldNamed f
  package : o.package = []
  module : o.module = []
  imported : o.imported = false

structure EnumNamed (e : Enumerator) : Prop where
  name : Word e.name
  fields : ∀ p ∈ e.fields, Word p.1 ∧ Num32 p.2
  others : e = { name := e.name, fields := e.fields }

/-- All names that a message declares are identifiers; nothing about its place has been noted. -/
inductive MessageNamed : Message → Prop where
  | mk {m : Message} : Word m.name → (∀ f ∈ m.fields, FieldNamed f) → (∀ o ∈ m.oneofs, OneofNamed o) →
      (∀ e ∈ m.enums, EnumNamed e) → (∀ n ∈ m.messages, MessageNamed n) →
      (m.imported = false ∧ m.package = [] ∧ m.module = [] ∧ m.index = []) → MessageNamed m

/-- All names that a file declares are identifiers. -/
structure FileNamed (D : FileDescriptor) : Prop where
  package : D.package = [] ∨ Name D.package
  messages : ∀ m ∈ D.messages, MessageNamed m
  enums : ∀ e ∈ D.enums, EnumNamed e
  module : D.module = []

end QP.Pbrs
