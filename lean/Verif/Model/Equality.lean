import Verif.Spec.Message
/-!
# `==` on generated messages

Generated structs, and the enums of oneofs, derive `PartialEq` (types.rs 1597-1600, 2294): members are compared in order.
-/

namespace QP.Gen
open QP.Pbrs

/-- `==` of two values of field type `t`: `PartialEq` of numbers, strings and enums (`scalarEq`; an enum derives it, types.rs 2183, and is its
number), of a message (a `Box` compares its contents). -/
def eqTyp (sub : MessageIndex → RVal → RVal → Bool) (t : FieldType) (a b : RVal) : Bool :=
  match t with
  | .message i => sub i a b
  | t => scalarEq t a b

/-- `==` of slices (`Vec`), and `Iterator::eq` (reader.rs 959-963, `PackedFixed`): element by element, and of the same length. -/
def eqSeq {α : Type} (eq : α → α → Bool) : List α → List α → Bool
  | [], [] => true
  | a :: as, b :: bs => eq a b && eqSeq eq as bs
  | _, _ => false

/-- `HashMap::get`. -/
def mapGet (k : RVal) : List (RVal × RVal) → Option RVal
  | [] => Option.none
  | (k', v) :: l => if keyEq k' k then Option.some v else mapGet k l

/-- `==` of `HashMap`s: `self.len() == other.len() && self.iter().all(|(k, v)| other.get(k).map_or(false, |w| v == w))`. (A `BTreeMap`, used
with `nostd`, compares the entries in the order of the keys, with the same result.) -/
def eqMap (eq : RVal → RVal → Bool) (l l' : List (RVal × RVal)) : Bool :=
  l.length == l'.length && l.all fun e =>
    match mapGet e.1 l' with
    | Option.some v => eq e.2 v
    | Option.none => false

/-- `==` of a struct field: of an `Option`, of the bare value, of a `Vec` or `PackedFixed` (reader.rs 959-963: its numbers, one by one; that
the iterator yields them is C29), or of a map. -/
def eqField (sub : MessageIndex → RVal → RVal → Bool) (f : Field) (a b : RVal) : Bool :=
  match f.frequency.generated with
  | .singular =>
    if f.frequency.isOptional then
      match a, b with
      | .none, .none => true
      | .some x, .some y => eqTyp sub f.typ x y
      | _, _ => false
    else eqTyp sub f.typ a b
  | .arrayLike =>
    match a, b with
    | .pf32 p, .pf32 q => eqSeq (if f.typ = .float then f32Eq else fun x y => x == y) (pfElems p) (pfElems q)
    | .pf64 p, .pf64 q => eqSeq (if f.typ = .double then f64Eq else fun x y => x == y) (pfElems p) (pfElems q)
    | .vec l, .vec l' => eqSeq (eqTyp sub f.typ) l l'
    | _, _ => false
  | .map =>
    match f.typ, a, b with
    | .map _ t, .map l, .map l' => eqMap (eqTyp sub t) l l'
    | _, _, _ => false

/-- `==` of a member: of the enum of a oneof the variants are compared, then their contents. -/
def eqMember (sub : MessageIndex → RVal → RVal → Bool) (mem : Member) (a b : RVal) : Bool :=
  match mem with
  | .field f => eqField sub f a b
  | .oneof fs =>
    match a, b with
    | .none, .none => true
    | .choice i x, .choice j y =>
      i == j && match fs[i]? with
        | Option.some f => eqTyp sub f.typ x y
        | Option.none => false
    | _, _ => false

/-- The derived `PartialEq` of a struct: all members. -/
def eqMembers (eq : Member → RVal → RVal → Bool) : List Member → List RVal → List RVal → Bool
  | [], [], [] => true
  | mem :: ms, a :: as, b :: bs => eq mem a b && eqMembers eq ms as bs
  | _, _, _ => false

/-- `v == w` for two values of message `idx`, nested at most `depth` deep. -/
def eqMsg (C : Ctx) : (depth : Nat) → MessageIndex → RVal → RVal → Bool
  | 0, _, _, _ => false
  | n + 1, idx, v, w =>
    match C.D.getMessage idx with
    | Option.none => false
    | Option.some m => eqMembers (eqMember (eqMsg C n)) (members C.cfg m) v.slots w.slots

end QP.Gen
