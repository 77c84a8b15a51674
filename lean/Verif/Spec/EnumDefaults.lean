import Verif.Spec.Defaults
import Verif.Spec.Paths
import Verif.Model.Rust.Trees
/-!
# Enum values as defaults

What the expressions mean that pb-rs writes for values of enums, and which schemas have only defaults that Rust and the protocol buffer
language read alike.
-/

namespace QP.Rust
open QP.Pbrs QP.Gen

/-- The text of a path. -/
def pathText (p : Path) : Str := (pathDoc p).str

/-- The path of an enum in the crate, from the directory that pb-rs writes to: its package, the modules of the messages around it, its
name. -/
def fullPath (e : Enumerator) : Path := segments e.module ++ [e.name]

/-- All enums of a schema. -/
def allEnums (D : FileDescriptor) : List Enumerator :=
  D.enums ++ (Message.preorderAll [] 0 D.messages).flatMap fun p => p.2.enums

/-- The number of the variant that the text `s` names, where an expression of the enum with the path `p` is needed: that path or the full
one, then the name of the variant. -/
def enumValue (D : FileDescriptor) (p : Path) (s : Str) : Option Int :=
  ((allEnums D).filter fun e => enumPath D e = p).findSome? fun e =>
    e.fields.findSome? fun v => if s = pathText (enumPath D e ++ [v.1]) ∨ s = pathText (fullPath e ++ [v.1]) then some v.2 else none

/-- The meaning of an expression of a type: of literals, and of variants of the enums of the schema. (Nothing else is ever asked.) -/
def meaning (F : Rounding) (D : FileDescriptor) (t : Ty) (s : Str) : RVal :=
  match t with
  | .adt p _ => match enumValue D p s with
    | some n => .w32 (BitVec.ofInt 32 n)
    | none => .none
  | t => (litValue F t s).getD .none

/-- Neither the enum nor one of its values has a name that pb-rs changes, and the module has no empty part. -/
structure EnumKept (e : Enumerator) : Prop where
  name : sanitizeKeyword e.name = e.name
  values : ∀ v ∈ e.fields, sanitizeKeyword v.1 = v.1
  module : [] ∉ splitDot e.module

/-- A schema with defaults that Rust and the protocol buffer language read alike. -/
structure PlainDefaults (F : Rounding) (D : FileDescriptor) : Prop where
  enums : ∀ e en, D.getEnum e = some en → EnumKept en
  scalars : ∀ i m f d, D.getMessage i = some m → f ∈ m.fields → f.default = some d → FieldType.scalar f.typ = true →
    ∃ x, DeclaresDefault F f.typ d x ∧ PlainDefault f.typ d = true
  values : ∀ i m f d e en, D.getMessage i = some m → f ∈ m.fields → f.default = some d → ResolvesTo D m f.typ (.enum e) →
    D.getEnum e = some en → ∃ n, (d, n) ∈ en.fields

end QP.Rust
