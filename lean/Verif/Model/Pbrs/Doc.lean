import Lean.Elab.Term
import Verif.Model.Pbrs.Nom
import Verif.Model.Pbrs.Names
/-!
# Text that is being written

`write!(w, "…{}…", x)` is `d!"…{x}…"` (a `{{` of Rust is `\{` here, a `}}` is `}`). A text is represented by the function that
puts it in front of another text, so that writing one text after another is composition of functions.
-/

namespace QP.Pbrs

/-- A text. -/
structure Doc where
  /-- The text, followed by another. -/
  before : Str → Str
  /-- It is put in front of the other text. -/
  front : ∀ r, before r = before [] ++ r

namespace Doc

/-- The text itself. -/
def str (d : Doc) : Str := d.before []

/-- A given text. -/
def lit (s : Str) : Doc := ⟨fun r => s ++ r, fun r => by rw [List.append_nil]⟩

/-- One text after another. -/
def append (a b : Doc) : Doc :=
  ⟨fun r => a.before (b.before r), fun r => by rw [b.front r, a.front (b.before [] ++ r), a.front (b.before []), List.append_assoc]⟩

instance : Append Doc := ⟨append⟩

/-- The empty text. -/
def empty : Doc := ⟨fun r => r, fun _ => rfl⟩

/-- Texts one after another. -/
def concat : List Doc → Doc
  | [] => empty
  | d :: ds => d ++ concat ds

/-- The end of a line, `writeln!(w)`. -/
def nl : Doc := ⟨fun r => '\n' :: r, fun _ => rfl⟩

end Doc

/-- `writeln!`. -/
def ln (d : Doc) : Doc := d ++ Doc.nl

/-- Things that can be written: `impl Display`. -/
class ToDoc (α : Type) where
  toDoc : α → Doc

export ToDoc (toDoc)

instance : ToDoc Doc := ⟨id⟩
instance : ToDoc Str := ⟨Doc.lit⟩
/-- Numbers are written in decimal notation. -/
instance : ToDoc Nat := ⟨fun n => .lit (Nat.toDigits 10 n)⟩
instance : ToDoc Int := ⟨fun n => .lit (if n < 0 then '-' :: Nat.toDigits 10 n.natAbs else Nat.toDigits 10 n.natAbs)⟩
instance {w : Nat} : ToDoc (BitVec w) := ⟨fun n => .lit (Nat.toDigits 10 n.toNat)⟩

open Lean in
/-- `d!"a{x}b"`: the text `a`, then `x`, then the text `b`. -/
macro:max "d!" s:interpolatedStr(term) : term => do
  let mut parts : Array (TSyntax `term) := #[]
  for chunk in s.raw.getArgs do
    match chunk.isInterpolatedStrLit? with
    | some str =>
      if !str.isEmpty then
        let cs : Array (TSyntax `term) := str.toList.toArray.map fun c => ⟨Syntax.mkCharLit c⟩
        parts := parts.push (← `(Doc.lit [$cs,*]))
    | none => parts := parts.push (← `(toDoc $(⟨chunk⟩)))
  match parts.back? with
  | none => `(Doc.empty)
  | some last =>
    let mut r := last
    for p in parts.pop.reverse do
      r ← `(Doc.append $p $r)
    return r

end QP.Pbrs
