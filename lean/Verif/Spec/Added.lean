import Verif.Spec.Scopes
set_option linter.unusedVariables false
/-!
# Adding enums to a schema (C123)
-/

namespace QP.Pbrs

/-- The part of a name after its last dot. -/
def lastName (n : Str) : Str := (n.reverse.takeWhile (· ≠ '.')).reverse

/-- The schema with the enums `E` after its own. -/
def FileDescriptor.addEnums (D : FileDescriptor) (E : List Enumerator) : FileDescriptor := { D with enums := D.enums ++ E }

/-- No field of a message (or a message in it, or in a oneof) has a type whose name, or last part of the name, is the name of the enum. -/
def Unnamed (D : FileDescriptor) (e : Enumerator) : Prop :=
  ∀ i m, D.getMessage i = some m → ∀ f ∈ m.allFields, ∀ n, f.typ.uses n → lastName n ≠ e.name

end QP.Pbrs
