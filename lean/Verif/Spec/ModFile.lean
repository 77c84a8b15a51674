import Verif.Model.Pbrs.Types
/-!
# The `mod.rs` files pb-rs maintains
-/

namespace QP.Pbrs

/-- The text of a generated `mod.rs` declaring the modules `ns`. -/
def modFile (ns : List Str) : Str :=
  "// Automatically generated mod.rs\n".toList ++ ns.flatMap (fun n => "pub mod ".toList ++ n ++ ";\n".toList)

/-- The names without repetitions, each where it occurs first. -/
def firstOccurrences : List Str → List Str
  | [] => []
  | n :: ns => n :: (firstOccurrences ns).filter (· != n)

end QP.Pbrs
