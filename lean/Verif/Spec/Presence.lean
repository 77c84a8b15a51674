import Verif.Spec.Message
/-!
# How often a field is on the wire

Protobuf distinguishes fields that are set from fields that are not by whether there is a record for them.
-/

namespace QP.Gen
open QP.Pbrs

/-- How many records a member of a struct with value `v` should have on the wire: a `required` field one; an optional field one if it is set;
a field without presence one unless it is the default; a packed field one unless it is empty; other repeated fields one for each element; a
map one for each entry; a oneof one if one of its variants is chosen. -/
def occurrences (C : Ctx) (mem : Member) (v : RVal) : Nat :=
  match mem, v with
  | .oneof _, .none => 0
  | .oneof _, _ => 1
  | .field f, v =>
    match f.frequency, v with
    | .p2required, _ => 1
    | .p2optional, .none | .p3optional, .none => 0
    | .p2optional, _ | .p3optional, _ => 1
    | .p3default, v => if f.typ.asMessage.isNone && scalarEq f.typ v (fieldDefault C f) then 0 else 1
    | .p2repeated, .vec l | .p3repeated, .vec l => if f.isPacked then (if l.isEmpty then 0 else 1) else l.length
    | .p2repeated, .pf32 p | .p3repeated, .pf32 p => if (pfElems p).isEmpty then 0 else 1
    | .p2repeated, .pf64 p | .p3repeated, .pf64 p => if (pfElems p).isEmpty then 0 else 1
    | .p2map, .map l | .p3map, .map l => l.length
    | _, _ => 0

/-- A member that can be not set: an optional field or a oneof. -/
def Member.canBeUnset : Member → Bool
  | .oneof _ => true
  | .field f => f.frequency.isOptional

end QP.Gen
