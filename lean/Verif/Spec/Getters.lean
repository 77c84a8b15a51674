import Verif.Model.Rust.Getters
import Verif.Spec.Printed
/-!
# What is generated for custom defaults
-/

namespace QP.Rust
open QP.Pbrs QP.Gen

/-- Field `f` has the custom default `s` that readers of the message have to know: it is an optional proto2 field of a scalar type, it
is generated, and its default is `s`. -/
structure Defaulted (D : FileDescriptor) (cfg : Config) (f : Field) (s : Str) : Prop where
  proto2 : D.syntax_ = .proto2
  optional : f.frequency = .p2optional
  scalar : f.typ.asMessage = none ∧ f.typ.isMap = false
  visible : f.visible cfg = true
  default : f.default = some s

instance (D : FileDescriptor) (cfg : Config) (f : Field) : Decidable (∃ s, Defaulted D cfg f s) :=
  decidable_of_iff (D.syntax_ = .proto2 ∧ f.frequency = .p2optional ∧ (f.typ.asMessage = none ∧ f.typ.isMap = false) ∧
      f.visible cfg = true ∧ f.default.isSome = true)
    ⟨fun ⟨h1, h2, h3, h4, h5⟩ => ⟨_, h1, h2, h3, h4, (Option.some_get h5).symm⟩,
     fun ⟨_, h1, h2, h3, h4, h5⟩ => ⟨h1, h2, h3, h4, by rw [h5]; rfl⟩⟩

/-- The fields of a message with such a default. -/
def defaultedFields (D : FileDescriptor) (cfg : Config) (m : Message) : List Field := m.fields.filter fun f => ∃ s, Defaulted D cfg f s

/-- The type of a constant: the type of the field, but strings and bytes are borrowed. -/
def constTy (D : FileDescriptor) (cfg : Config) (t : FieldType) : Option Ty :=
  match t with
  | .string_ => some (.ref .str)
  | .bytes_ => some (.ref .slice)
  | t => tyOf D cfg t

/-- The constant of a field: its default. -/
def constItem (D : FileDescriptor) (cfg : Config) (f : Field) : Option ConstItem :=
  f.default.bind fun s => (constTy D cfg f.typ).map fun t => ⟨c! "DEFAULT_" ++ f.name, t, s⟩

/-- The getter of a field. -/
def getterItem (D : FileDescriptor) (cfg : Config) (f : Field) : Option GetterItem :=
  let x := GetExpr.asRef (.field f.name)
  let d := GetExpr.const (c! "DEFAULT_" ++ f.name)
  match f.typ with
  | .string_ => some ⟨c! "get_" ++ f.name, .ref .str, .ref (.unwrapOr (.mapStr x) d)⟩
  | .bytes_ => some ⟨c! "get_" ++ f.name, .ref .slice, .ref (.unwrapOr (.mapSlice x) d)⟩
  | .stringCow => some ⟨c! "get_" ++ f.name, .ref .cowStr, .unwrapOr x (.ref d)⟩
  | .bytesCow => some ⟨c! "get_" ++ f.name, .ref .cowBytes, .unwrapOr x (.ref d)⟩
  | t => (tyOf D cfg t).map fun t => ⟨c! "get_" ++ f.name, t, .deref (.unwrapOr x (.ref d))⟩

/-- The constants of a message. -/
def constItems (D : FileDescriptor) (cfg : Config) (m : Message) : Option (List ConstItem) := (defaultedFields D cfg m).mapM (constItem D cfg)

/-- The getters of a message. -/
def getterItems (D : FileDescriptor) (cfg : Config) (m : Message) : Option (List GetterItem) := (defaultedFields D cfg m).mapM (getterItem D cfg)

/-- The value of an `Option`, or `d`. -/
def valueOr (d : RVal) : RVal → RVal
  | .some x => x
  | _ => d

end QP.Rust
