import Verif.Model.Pbrs.Emit
import Verif.Model.Rust.Syntax
/-!
# Rust modules and paths

Which item a path names. Nothing here is about protocol buffers. What is taken from Rust: an item declared or imported by name in a
module shadows what a glob import brings in; `use super::*` brings in everything the other module has or imports; segments of a path
after the first are looked up in the module named so far. Types and modules share one namespace.
-/

namespace QP.Rust
open QP.Pbrs

/-- What is in a module. -/
inductive Entry where
  /-- text that declares these types (or none, such as an `impl`) -/
  | item (names : List Str) (text : Doc)
  /-- text that imports these names from elsewhere -/
  | use_ (names : List Str) (text : Doc)
  /-- `use super::…::super::*;` -/
  | supers (n : Nat)
  /-- a module -/
  | mod_ (name : Str) (entries : List Entry)

/-- Text that declares nothing. -/
def Entry.text (d : Doc) : Entry := .item [] d

mutual
/-- How an entry is written. -/
def Entry.doc : Entry → Doc
  | .item _ t => t
  | .use_ _ t => t
  | .supers n => d!"use " ++ Doc.concat (List.replicate n d!"super::") ++ ln d!"*;"
  | .mod_ x es => ln d!"pub mod {x} \{" ++ Doc.nl ++ Entry.docs es ++ ln d!"}"
/-- Entries one after another. -/
def Entry.docs : List Entry → Doc
  | [] => .empty
  | e :: es => e.doc ++ Entry.docs es
end

/-- The names an entry declares. -/
def Entry.declares : Entry → List Str
  | .item ns _ => ns
  | .mod_ x _ => [x]
  | _ => []

/-- The names an entry imports by name. -/
def Entry.imports : Entry → List Str
  | .use_ ns _ => ns
  | _ => []

/-- The names that a module declares or imports by name. -/
def names (es : List Entry) : List Str := es.flatMap fun e => e.declares ++ e.imports

/-- The glob imports of a module: how many `super`s. -/
def globs (es : List Entry) : List Nat := es.filterMap fun e => match e with | .supers n => some n | _ => none

/-- The module named `x`, if the entry is that. -/
def Entry.named (x : Str) : Entry → Option (List Entry)
  | .mod_ y es => if y = x then some es else none
  | _ => none

/-- The module with a given path, in a crate or in a module. -/
def inside (es : List Entry) : Path → Option (List Entry)
  | [] => some es
  | x :: p => (es.findSome? (Entry.named x)).bind fun es' => inside es' p

/-- In module `q`, the name `x` means the `x` of module `p`. -/
inductive Finds (crate : List Entry) : Path → Str → Path → Prop
  | own {q es e x} : inside crate q = some es → e ∈ es → x ∈ e.declares → Finds crate q x q
  | glob {q es n x p} : inside crate q = some es → x ∉ names es → globs es = [n] → n ≤ q.length →
      Finds crate (q.take (q.length - n)) x p → Finds crate q x p

/-- The entry `e` of the module at `p` declares `x`, and is the only one to declare or import it. -/
def Declared (crate : List Entry) (p : Path) (x : Str) (e : Entry) : Prop :=
  ∃ es, inside crate p = some es ∧ e ∈ es ∧ x ∈ e.declares ∧ (names es).count x = 1

/-- In module `q`, a path denotes the item that `e` declares. -/
def Denotes (crate : List Entry) (q : Path) : Path → Entry → Prop
  | [], _ => False
  | x :: xs, e => ∃ p, Finds crate q x p ∧ ∃ last, (x :: xs).getLast? = some last ∧ Declared crate (p ++ (x :: xs).dropLast) last e

end QP.Rust
