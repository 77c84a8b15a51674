import Verif.Model.Rust.Enums
import Verif.Spec.Printed
/-!
# What is generated for an enum
-/

namespace QP.Rust
open QP.Pbrs

/-- The file has the enum and its implementations. -/
structure HasEnum (file : Doc) (E : EnumItem) : Prop where
  definition : Doc.Has file E.definition
  default : Doc.Has file E.implDefault
  fromI32 : Doc.Has file E.implFromI32
  fromStr : Doc.Has file E.implFromStr

/-- What is generated for the enum `name` of a `.proto` file: its name and its variants are renamed if they are keywords, except in
`default`. -/
def enumItem (name : Str) (fields : List (Str × Int)) : EnumItem where
  name := sanitizeKeyword name
  variants := fields.map fun f => (sanitizeKeyword f.1, f.2)
  default := match fields with
    | [] => []
    | f :: _ => [name, f.1]
  fromI32 := fields.map fun f => (f.2, [sanitizeKeyword name, sanitizeKeyword f.1])
  fromStr := fields.map fun f => (sanitizeKeyword f.1, [sanitizeKeyword name, sanitizeKeyword f.1])

end QP.Rust
