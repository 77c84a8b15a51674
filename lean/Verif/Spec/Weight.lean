import Verif.Model.Gen
/-!
# How much memory a value takes, and how deep it is
-/

namespace QP.Gen

/-- The bytes in a `PackedFixed` whose elements have `n` bytes. -/
def packedBytes {α : Type} (n : Nat) : PackedFixed α → Nat
  | .noDataYet => 0
  | .borrowed b => b.length
  | .owned l => n * l.length

mutual
/-- The number of parts of a value: numbers, bytes of strings, and the containers themselves. -/
def RVal.weight : RVal → Nat
  | .w32 _ | .w64 _ | .bool _ | .none => 1
  | .bytes b => 1 + b.length
  | .some v => 1 + v.weight
  | .vec l => 1 + weights l
  | .pf32 p => 1 + packedBytes 4 p
  | .pf64 p => 1 + packedBytes 8 p
  | .map l => 1 + pairWeights l
  | .choice _ v => 1 + v.weight
  | .struct l => 1 + weights l
/-- … of the values of a list. -/
def weights : List RVal → Nat
  | [] => 0
  | v :: l => v.weight + weights l
/-- … of the entries of a map. -/
def pairWeights : List (RVal × RVal) → Nat
  | [] => 0
  | (k, v) :: l => k.weight + v.weight + pairWeights l
end

end QP.Gen
