import Verif.Model.Rust.Syntax
/-!
# Lifetimes in Rust types
-/

namespace QP.Rust
open QP.Pbrs

/-- The type is written with the lifetime `'a` in it. -/
def Ty.borrows : Ty → Bool
  | .cowStr | .cowBytes | .packed _ => true
  | .adt _ l => l
  | .option t | .box t | .vec t | .ref t => t.borrows
  | .kvmap k v => k.borrows || v.borrows
  | _ => false

/-- The structs and enums that are named in a type, and whether they are given the lifetime. -/
def Ty.uses : Ty → List (Path × Bool)
  | .adt p l => [(p, l)]
  | .option t | .box t | .vec t | .packed t | .ref t => t.uses
  | .kvmap k v => k.uses ++ v.uses
  | _ => []

end QP.Rust
