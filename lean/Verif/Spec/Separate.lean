import Verif.Spec.Imports
import Verif.Spec.Scopes
/-!
# Files that are generated one by one
-/

namespace QP.Pbrs

/-- The message at `i` in `D` and the one at `i'` in `D'` are the same declaration, nested equally deep; only the mark "imported" may differ. -/
def Twin (D D' : FileDescriptor) (i i' : MessageIndex) : Prop :=
  i.length = i'.length ∧ ∃ x x', D.getMessage i = some x ∧ D'.getMessage i' = some x' ∧ x.setImported = x'.setImported

/-- Two types are the same declaration. -/
def TwinType (D D' : FileDescriptor) : FieldType → FieldType → Prop
  | .message i, .message i' => Twin D D' i i'
  | .enum _, .enum _ => True
  | _, _ => False

/-- A full name is declared once (or is the same message again: a file may be imported on several ways). -/
def OneMeaning (D : FileDescriptor) : Prop := ∀ n t t', Declares D n t → Declares D n t' → TwinType D D t t'

/-- No type name that is used in `D'` can mean something that is declared in `D` only. -/
def NotCaptured (D D' : FileDescriptor) : Prop :=
  ∀ i m, D'.getMessage i = some m → ∀ f ∈ m.allFields, ∀ n, f.typ.uses n → ∀ c ∈ candidates m n, ∀ t, Declares D c t → ∃ t', Declares D' c t'

end QP.Pbrs
