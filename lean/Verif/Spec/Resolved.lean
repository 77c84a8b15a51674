import Verif.Spec.Message
/-!
# Schemas whose type names are resolved

What `resolve_types` and the checks of pb-rs establish before code is generated: every type a field uses exists, enums
have a variant, and a `default` option is a value of its field's type (rustc checks the latter).
-/

namespace QP.Gen
open QP.Pbrs Spec

/-- A scalar, a string, an enum with a variant, or an existing message. -/
def TypOk (C : Ctx) : FieldType → Prop
  | .enum e => C.enumNums e ≠ []
  | .message i => ∃ m, C.D.getMessage i = Option.some m
  | .map _ _ | .messageOrEnum _ => False
  | _ => True

/-- All field types of a schema are resolved (`map` types have resolved key and value types), and custom defaults
are values of the field's type. -/
def Resolved (C : Ctx) : Prop :=
  ∀ idx m, C.D.getMessage idx = Option.some m → ∀ a ∈ arms C.cfg m,
    (match a.field.typ with
     | .map k v => TypOk C k ∧ TypOk C v ∧ a.choice = Option.none
     | t => TypOk C t) ∧
    ∀ s, a.field.default = Option.some s → HasType C (fun _ _ => False) a.field.typ (C.const a.field.typ s)

end QP.Gen
