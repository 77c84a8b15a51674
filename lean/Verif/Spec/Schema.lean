import Verif.Model.Pbrs.Types
import Verif.Spec.Graph
/-!
# Message graphs
-/

namespace QP.Pbrs
open Spec

/-- The messages of a schema know their position (`get_full_names` establishes it). -/
def IndexOk (D : FileDescriptor) : Prop := ∀ idx m, D.getMessage idx = some m → m.index = idx

/-- Message `i` contains message `j` by value: some field or oneof variant of `i`, neither boxed nor repeated, has type
`j` (and `j` exists). -/
def Contains (D : FileDescriptor) (i j : MessageIndex) : Prop :=
  ∃ m f, D.getMessage i = some m ∧ f ∈ m.allFields ∧ f.boxed = false ∧ f.frequency.isRepeated = false ∧
    f.typ = .message j ∧ (D.getMessage j).isSome

/-- A Rust struct can be laid out: no chain of by-value containments is infinite (in particular none is a cycle). -/
def AllSized (D : FileDescriptor) : Prop := WellFounded (fun j i => Contains D i j)

/-- Some message field of `i`, neither optional nor repeated nor boxed, has type `j` (and `j` exists). -/
def Requires (D : FileDescriptor) (i j : MessageIndex) : Prop :=
  ∃ m f, D.getMessage i = some m ∧ f ∈ m.allFields ∧ f.boxed = false ∧ f.frequency.isOptional = false ∧
    f.frequency.isRepeated = false ∧ f.typ = .message j ∧ (D.getMessage j).isSome

/-- Some message field of `i`, of whatever frequency, has type `j`. -/
def Mentions (D : FileDescriptor) (i j : MessageIndex) : Prop :=
  ∃ m f, D.getMessage i = some m ∧ f ∈ m.allFields ∧ f.typ = .message j

/-- Some message field of `i` that is not optional (required or repeated) and not boxed has type `j`. -/
def MentionsFirmly (D : FileDescriptor) (i j : MessageIndex) : Prop :=
  ∃ m f, D.getMessage i = some m ∧ f ∈ m.allFields ∧ f.boxed = false ∧ f.frequency.isOptional = false ∧ f.typ = .message j

end QP.Pbrs
