import Verif.Model.Gen
import Verif.Spec.Message
import Verif.Spec.Programs
/-!
# Truncated input
-/

namespace QP
open QP.Pbrs

/-- The outcome is an error; or, if `pf` holds, a panic. -/
def Rejected (pf : Prop) {α : Type} (o : Out α) : Prop := (∃ e, o = .err e) ∨ (pf ∧ o = .panic)

/-- Some message of the schema has a packed field of fixed-size numbers (as a member that is generated). -/
def Gen.HasPackedFixed (C : Gen.Ctx) : Prop :=
  ∃ idx m f, C.D.getMessage idx = some m ∧ .field f ∈ Gen.members C.cfg m ∧ Gen.isPackedFixed f = true ∧
    f.frequency.generated = .arrayLike

/-- Calling `read_message` again and again, from reader state `r` on, returns the messages `ms`, one per
call, and leaves the reader in state `r'`. -/
def Yields {M : Type} (T : Target) (from_reader : Bytes → RM M) (bytes : Bytes) :
    BytesReader → List M → BytesReader → Prop
  | r, [], r' => r' = r
  | r, m :: ms, r' => ∃ r1, BytesReader.read_message T bytes (from_reader bytes) r = (.ok m, r1) ∧
      Yields T from_reader bytes r1 ms r'

end QP
