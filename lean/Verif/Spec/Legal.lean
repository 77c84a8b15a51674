import Verif.Spec.Words
import Verif.Spec.Grammar
import Verif.Spec.Layout
/-!
# Names that Rust accepts
-/

namespace QP.Pbrs

/-- An (ASCII) identifier of Rust, edition 2018 or later: letters, digits and `_`, not a digit first, not `_` alone, not a keyword. -/
structure RustIdent (s : Str) : Prop where
  chars : ∃ c cs, s = c :: cs ∧ (c.isAlpha = true ∨ c = '_') ∧ ∀ d ∈ cs, d.isAlphanum = true ∨ d = '_'
  blank : s ≠ c! "_"
  keyword : s ∉ strictKeywords ∧ s ∉ newKeywords ∧ s ∉ reservedKeywords

/-- The names that an enum declares. -/
def EnumName (e : Enumerator) (x : Str) : Prop := x = e.name ∨ ∃ p ∈ e.fields, x = p.1

/-- The names that a message declares, apart from those that the messages in it declare. -/
def MessageName (m : Message) (x : Str) : Prop :=
  x = m.name ∨ (∃ f ∈ m.fields, x = f.name) ∨ (∃ o ∈ m.oneofs, x = o.name ∨ ∃ f ∈ o.fields, x = f.name) ∨ ∃ e ∈ m.enums, EnumName e x

/-- The names that are declared in a file or in the files it imports. -/
def NameIn (D : FileDescriptor) (x : Str) : Prop := (∃ i m, D.getMessage i = some m ∧ MessageName m x) ∨ ∃ e ∈ D.enums, EnumName e x

/-- A name that is neither `_` nor one of the five keywords that pb-rs does not know. -/
def Usual (x : Str) : Prop := x ≠ c! "_" ∧ x ∉ newKeywords ∧ x ≠ c! "macro"

end QP.Pbrs

namespace QP.Rust
open QP.Pbrs

/-- An entry is in a file, possibly in modules of it. -/
inductive Within (e : Entry) : List Entry → Prop where
  | here {es : List Entry} : e ∈ es → Within e es
  | deep {es es' : List Entry} {x : Str} : Entry.mod_ x es' ∈ es → Within e es' → Within e es

end QP.Rust
