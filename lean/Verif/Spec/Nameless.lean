import Verif.Model.Pbrs.Types
/-!
# Schemas without their names

What is left of a schema when all names are erased: names of messages, fields, oneofs, enums and enum values, packages and modules. Types of fields refer to messages and
enums by place, so they stay.
-/

namespace QP.Pbrs

/-- A field without its name and the text of its default (which may be the name of an enum value). -/
def Field.nameless (f : Field) : Field := { f with name := [], default := f.default.map fun _ => [] }

/-- A oneof: its fields. -/
def OneOf.nameless (o : OneOf) : OneOf := { name := [], fields := o.fields.map Field.nameless }

/-- An enum: its numbers. -/
def Enumerator.nameless (e : Enumerator) : Enumerator := { name := [], fields := e.fields.map fun p => ([], p.2) }

mutual
/-- A message: its fields, oneofs, messages and enums. -/
def Message.nameless : Message → Message
  | ⟨_, fields, oneofs, _, _, _, _, messages, enums, _, _⟩ =>
    { name := [], fields := fields.map Field.nameless, oneofs := oneofs.map OneOf.nameless, messages := Message.namelessAll messages, enums := enums.map Enumerator.nameless }
/-- The same for each. -/
def Message.namelessAll : List Message → List Message
  | [] => []
  | m :: ms => m.nameless :: Message.namelessAll ms
end

/-- A file: its syntax, messages and enums. -/
def FileDescriptor.nameless (D : FileDescriptor) : FileDescriptor :=
  { syntax_ := D.syntax_, messages := Message.namelessAll D.messages, enums := D.enums.map Enumerator.nameless }

end QP.Pbrs
