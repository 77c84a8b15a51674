import Verif.Model.Gen
/-!
# The parts of a value that are borrowed when it is decoded

The generated structs hold strings, bytes and packed fixed-size numbers as `Cow::Borrowed` or `PackedFixed::Borrowed`: slices of the input.
-/

namespace QP.Gen
open QP.Pbrs

/-- The bytes that a `PackedFixed` borrows. -/
def packedSlices {α : Type} : PackedFixed α → List Bytes
  | .borrowed b => [b]
  | _ => []

mutual
/-- All strings and byte strings in a value, and all bytes that its packed fields borrow, at any depth. -/
def RVal.slices : RVal → List Bytes
  | .w32 _ | .w64 _ | .bool _ | .none => []
  | .bytes b => [b]
  | .some v => v.slices
  | .vec l => slicesOf l
  | .pf32 p => packedSlices p
  | .pf64 p => packedSlices p
  | .map l => entrySlices l
  | .choice _ v => v.slices
  | .struct l => slicesOf l
/-- … in the values of a list. -/
def slicesOf : List RVal → List Bytes
  | [] => []
  | v :: l => v.slices ++ slicesOf l
/-- … in the keys and values of a map. -/
def entrySlices : List (RVal × RVal) → List Bytes
  | [] => []
  | (k, v) :: l => k.slices ++ v.slices ++ entrySlices l
end

/-- A string that a `[default = …]` of the schema provides. -/
def Constant (C : Ctx) (s : Bytes) : Prop :=
  ∃ (idx : MessageIndex) (m : Message) (f : Field) (text : Str), C.D.getMessage idx = Option.some m ∧ f ∈ m.fields ∧ f.default = Option.some text ∧ s ∈ (C.const f.typ text).slices

/-- Types that do not exist have no values with strings (other than empty ones). -/
def NoGhosts (C : Ctx) : Prop := ∀ idx, C.D.getMessage idx = Option.none → ∀ s ∈ (C.dflt idx).slices, s = []

end QP.Gen
