import Verif.Spec.Message
/-!
# Merging two messages

The protobuf encoding guide has it that decoding the concatenation of two encoded messages merges the messages: "the concatenation of two
encoded messages is equivalent to the merge of the two". `merge` is the merge of the guide. `overlay` is the simpler operation that differs
from it where both messages have a message in the same field, or numbers in the same packed field: the later one replaces the earlier one.
-/

namespace QP.Gen
open QP.Pbrs

/-- All entries of `l'` inserted into `l`. -/
def insertAll (l l' : List (RVal × RVal)) : List (RVal × RVal) := l'.foldl (fun l e => insertKV e.1 e.2 l) l

/-- Two values of the same field: messages are merged, of other values the later one counts. -/
def mergeValue (sub : MessageIndex → RVal → RVal → RVal) (t : FieldType) (x y : RVal) : RVal :=
  match t with
  | .message i => sub i x y
  | _ => y

/-- The merge of the guide, for a member of a struct. Singular: the later value if there is one (a field without presence has none if it is
the default), messages being merged. Repeated: the elements of both, packed or not. Maps: the entries of both, the later one counts for a
key. Oneofs: the later choice if there is one; if it is a message and the earlier choice is the same field, they are merged. -/
def mergeMember (C : Ctx) (sub : MessageIndex → RVal → RVal → RVal) (mem : Member) (x y : RVal) : RVal :=
  match mem with
  | .field f =>
    (match f.frequency.generated with
    | .singular =>
      if f.frequency.isOptional then
        (match x, y with
        | x, .none => x
        | .some a, .some b => .some (mergeValue sub f.typ a b)
        | _, y => y)
      else if f.hasPresence then mergeValue sub f.typ x y
      else if scalarEq f.typ y (fieldDefault C f) then x else mergeValue sub f.typ x y
    | .arrayLike =>
      (match x, y with
      | .vec l, .vec l' => .vec (l ++ l')
      | .pf32 p, .pf32 p' => .pf32 (.owned (pfElems p ++ pfElems p'))
      | .pf64 p, .pf64 p' => .pf64 (.owned (pfElems p ++ pfElems p'))
      | _, y => y)
    | .map =>
      (match x, y with
      | .map l, .map l' => .map (insertAll l l')
      | _, y => y))
  | .oneof fs =>
    match x, y with
    | x, .none => x
    | .choice i a, .choice j b =>
      if i = j then
        (match fs[i]? with
        | Option.some f => .choice i (mergeValue sub f.typ a b)
        | Option.none => y)
      else y
    | _, y => y

/-- The merge of two values of message `idx`, nested at most `depth` deep. -/
def merge (C : Ctx) : (depth : Nat) → MessageIndex → RVal → RVal → RVal
  | 0, _, _, y => y
  | n + 1, idx, x, y =>
    match C.D.getMessage idx with
    | Option.none => y
    | Option.some m => .struct (List.zipWith (fun mem p => mergeMember C (merge C n) mem p.1 p.2) (members C.cfg m) (x.slots.zip y.slots))

/-- The value of a member is empty: an optional field or a oneof is not set, a repeated field has no elements, a map no entries. -/
def RVal.isVoid : RVal → Bool
  | .none => true
  | .vec l => l.isEmpty
  | .pf32 p => (pfElems p).isEmpty
  | .pf64 p => (pfElems p).isEmpty
  | .map l => l.isEmpty
  | _ => false

/-- The later value of a member replaces the earlier one (unless it is empty, or the default of a field without presence); only the elements
of repeated fields that are not packed are appended, and the entries of maps inserted. -/
def overlayMember (C : Ctx) (mem : Member) (x y : RVal) : RVal :=
  match mem with
  | .field f =>
    (match f.frequency.generated with
    | .singular =>
      if f.frequency.isOptional || f.hasPresence then (if y.isVoid then x else y)
      else if scalarEq f.typ y (fieldDefault C f) then x else y
    | .arrayLike =>
      if f.isPacked then (if y.isVoid then x else y)
      else
        (match x, y with
        | .vec l, .vec l' => .vec (l ++ l')
        | _, y => y)
    | .map =>
      (match x, y with
      | .map l, .map l' => .map (insertAll l l')
      | _, y => y))
  | .oneof _ => if y.isVoid then x else y

/-- One message on top of another. -/
def overlay (C : Ctx) (m : Message) (x y : RVal) : RVal :=
  .struct (List.zipWith (fun mem p => overlayMember C mem p.1 p.2) (members C.cfg m) (x.slots.zip y.slots))

/-- The two values of a member do not both hold a message in the same field, nor both numbers in a packed field. -/
def Apart (mem : Member) (x y : RVal) : Prop :=
  match mem with
  | .field f =>
    (match f.frequency.generated with
    | .singular => (∃ i, f.typ = .message i) → x.isVoid = true ∨ y.isVoid = true
    | .arrayLike => f.isPacked = true → x.isVoid = true ∨ y.isVoid = true
    | .map => True)
  | .oneof fs => ∀ i f a b, x = .choice i a → y = .choice i b → fs[i]? = Option.some f → ∀ k, f.typ ≠ .message k

end QP.Gen
