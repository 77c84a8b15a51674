import Verif.Spec.Paths
import Verif.Spec.Run
import Verif.Spec.Imports
/-!
# Files in a crate
-/

namespace QP.Rust
open QP.Pbrs

/-- The module that a file is meant to be: its package, or else its name. -/
def baseOf (package file : Str) : Path := segments (if package.isEmpty then getFileStem file else package)

/-- No message in which something is declared has a name that pb-rs changes. -/
def NamesKept (F : FileDescriptor) : Prop := ∀ idx m, F.getMessage idx = some m → Declares m → sanitizeKeyword m.name = m.name

/-- File `q` has been compiled to `E`, with the options `cfg`, and what was generated, `es`, is in the crate, in the module that is named
by the package of the file. -/
structure Linked (d : Disk) (crate : List Entry) (out : Path) (q : Str) (cfg : Config) (E : FileDescriptor) (es : List Entry) : Prop where
  compiled : ∃ (n : Nat) (j : Job) (D : FileDescriptor), j.inFile = q ∧ j.cfg = cfg ∧ readProtoFile d.file j.search n q = .ok D ∧ j.compiled n d = some E
  entries : ∃ services, fileEntries E cfg (splitSlash q).2 services = some es
  clean : Clean es
  place : ∃ text F r, d.file q = some text ∧ Parse.readProto text = .ok F r ∧ NamesKept F.desc ∧
    inside crate (out ++ baseOf F.desc.package q) = some es

end QP.Rust
