import Verif.Spec.Message
import Verif.Spec.Distinct
/-!
# Options of the generator

Two programs that are generated from the same schema, with different options. The fields of a message are in both at the same
places, so the values of the two programs can be compared: a string is its bytes, whether it is borrowed or not.
-/

namespace QP.Gen
open QP.Pbrs

/-- The defaults that are written in the schema have the same meaning in both programs. -/
def SameConstants (C C' : Ctx) : Prop :=
  ∀ (i : MessageIndex) (m m' : Message) (k : Nat) (f g : Field) (s s' : Str), C.D.getMessage i = Option.some m → C'.D.getMessage i = Option.some m' →
    m.fields[k]? = Option.some f → m'.fields[k]? = Option.some g → f.visible C.cfg = true → f.default = Option.some s → g.default = Option.some s' → C.const f.typ s = C'.const g.typ s'

end QP.Gen

namespace QP.Rust
open QP.Pbrs

/-- The same for the texts of the defaults: `K₁ T s` and `K₂ T s` are the values of the expression `s` of type `T` in the two programs. -/
def SameDefaults (E₁ : FileDescriptor) (cfg₁ : Config) (K₁ : Ty → Str → Gen.RVal) (E₂ : FileDescriptor) (cfg₂ : Config) (K₂ : Ty → Str → Gen.RVal) : Prop :=
  ∀ (i : MessageIndex) (m m' : Message) (k : Nat) (f g : Field) (s s' : Str), E₁.getMessage i = some m → E₂.getMessage i = some m' →
    m.fields[k]? = some f → m'.fields[k]? = some g → f.default = some s → g.default = some s' → K₁ (litTy E₁ cfg₁ f.typ) s = K₂ (litTy E₂ cfg₂ g.typ) s'

/-- Is the default of a field of this type a literal? -/
def literalType : FieldType → Bool
  | .enum _ | .message _ | .map _ _ | .messageOrEnum _ => false
  | _ => true

end QP.Rust
