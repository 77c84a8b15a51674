import Verif.Spec.Layout
import Verif.Spec.Scopes
/-!
# Where the declarations of a file are, and which paths can be used
-/

namespace QP.Rust
open QP.Pbrs

/-- The non-empty parts of a dotted name. -/
def segments (s : Str) : Path := (splitDot s).filter fun p => !p.isEmpty

/-- The module, in its file, in which the code of a message is: that of the enclosing messages. -/
def home (D : FileDescriptor) (idx : MessageIndex) : Path := (namesAlong D.messages idx).dropLast.map (c! "mod_" ++ ·)

/-- The module, in its file, for what is declared in a message. -/
def inner (D : FileDescriptor) (idx : MessageIndex) : Path := (namesAlong D.messages idx).map (c! "mod_" ++ ·)

/-- Something is declared in the message. -/
def Declares (m : Message) : Prop := m.messages ≠ [] ∨ m.enums ≠ [] ∨ m.oneofs ≠ []

/-- The message is declared in the file itself. -/
def Own (D : FileDescriptor) (idx : MessageIndex) : Prop :=
  ∃ i is t, idx = i :: is ∧ D.messages[i]? = some t ∧ t.imported = false

/-- The modules noted in the descriptor are those where the declarations of the file are, if the file is the module `base`. -/
structure Located (D : FileDescriptor) (base : Path) : Prop where
  messages : ∀ idx m, Own D idx → D.getMessage idx = some m → m.imported = false ∧ segments m.module = base ++ home D idx
  enums : ∀ e ∈ D.enums, e.imported = false → segments e.module = base
  nested : ∀ idx m, Own D idx → D.getMessage idx = some m → ∀ e ∈ m.enums, e.imported = false ∧ segments e.module = base ++ inner D idx
  oneofs : ∀ idx m, Own D idx → D.getMessage idx = some m → ∀ o ∈ m.oneofs, o.imported = false ∧ segments o.module = base ++ inner D idx

/-- The file is in the module `out ++ file` of the crate, as its package says: without a package `file` is any name, and paths in the
file do not mention it. -/
structure Installed (D : FileDescriptor) (base : Path) (crate es : List Entry) (out file : Path) : Prop where
  inside : inside crate (out ++ file) = some es
  package : D.package ≠ [] → file = base ∧ base.length = (splitDot D.package).length
  noPackage : D.package = [] → base.length = 1 ∧ file.length = 1

/-- In no module is a name declared or imported twice. -/
def Clean (es : List Entry) : Prop := ∀ p es', QP.Rust.inside es p = some es' → (names es').Nodup

/-- The modules of the file in which types are named: those with the code of a message, and those with the enum of a oneof. -/
inductive Spot (D : FileDescriptor) : Path → Prop
  | message {idx m} : Own D idx → D.getMessage idx = some m → Spot D (home D idx)
  | oneof {idx m o} : Own D idx → D.getMessage idx = some m → o ∈ m.oneofs → Spot D (inner D idx)

/-- The first name of a path is not hidden in the module `q` of the file by something else of that name, in this module or in one around
it: the file itself (if the path leads out of the file) and modules in it. -/
def Unhidden (es : List Entry) (leadsOut : Prop) (q path : Path) : Prop :=
  ∀ x ∈ path.head?, ∀ r es', r <+: q → (r = [] → leadsOut) → QP.Rust.inside es r = some es' → x ∉ names es'

end QP.Rust
