import Verif.Spec.Message
import Mathlib.Data.List.Forall2
/-!
# Two versions of a schema

A program built from one version of a schema (`W`) writes, a program built from another (`R`) reads. What may differ between the
versions (`Versions`), and what the reader then gets (`Carried`): from fields it does not know nothing, in fields the writer does
not know the default, in all others what was written, converted if the type has changed.
-/

namespace QP.Gen
open QP.Pbrs Spec

/-! ## What may change -/

/-- Types written as plain varints. -/
def _root_.QP.Pbrs.FieldType.isVarint : FieldType → Bool
  | .int32 | .int64 | .uint32 | .uint64 | .bool | .enum _ => true
  | _ => false

/-- The ones among them whose values fit into 32 bits. -/
def _root_.QP.Pbrs.FieldType.isNarrow : FieldType → Bool
  | .int32 | .uint32 | .bool | .enum _ => true
  | _ => false

/-- Values of the first type may be read as values of the second. `P i i'`: message `i` of the writer is message `i'` of the reader. -/
def Convertible (P : MessageIndex → MessageIndex → Prop) (t t' : FieldType) : Prop :=
  match t, t' with
  | .message i, .message i' => P i i'
  | .sint32, .sint32 | .sint64, .sint64 | .float, .float | .double, .double => True
  | .fixed32, .fixed32 | .fixed32, .sfixed32 | .sfixed32, .fixed32 | .sfixed32, .sfixed32 => True
  | .fixed64, .fixed64 | .fixed64, .sfixed64 | .sfixed64, .fixed64 | .sfixed64, .sfixed64 => True
  | .string_, .string_ | .string_, .stringCow | .stringCow, .string_ | .stringCow, .stringCow => True
  | .string_, .bytes_ | .string_, .bytesCow | .stringCow, .bytes_ | .stringCow, .bytesCow => True
  | .bytes_, .bytes_ | .bytes_, .bytesCow | .bytesCow, .bytes_ | .bytesCow, .bytesCow => True
  | t, t' => t.isVarint = true ∧ t'.isVarint = true ∧ (t' = .bool → t.isNarrow = true)

/-- Keys of maps do not change (but a string may be borrowed or owned). -/
def SameKey (k k' : FieldType) : Prop :=
  match k, k' with
  | .string_, .stringCow | .stringCow, .string_ => True
  | .enum _, _ | .float, _ | .double, _ | .bytes_, _ | .bytesCow, _ | .message _, _ | .map _ _, _ | .messageOrEnum _, _ => False
  | _, _ => k = k'

/-- How the values of a field are kept: a field of a oneof holds one value. -/
def Arm.kind (a : Arm) : GeneratedType := if a.choice.isSome then .singular else a.field.frequency.generated

/-- Is the field written as one packed record? -/
def Arm.packs (a : Arm) : Bool := a.field.isPacked && a.kind == .arrayLike

/-- A field of the writer and one of the reader with the same number: both are maps, with the same keys and convertible values; or
the types are convertible and either both are packed or none is. (`required`, `optional`, no label, and `repeated` may be exchanged;
fields may be moved into a oneof and out of it.) -/
def FieldsAgree (P : MessageIndex → MessageIndex → Prop) (a a' : Arm) : Prop :=
  match a.kind, a'.kind with
  | .map, .map => ∃ k t k' t', a.field.typ = .map k t ∧ a'.field.typ = .map k' t' ∧ SameKey k k' ∧ Convertible P t t'
  | .map, _ | _, .map => False
  | _, _ => a.packs = a'.packs ∧ Convertible P a.field.typ a'.field.typ

/-- `W` and `R` are versions of a schema: whenever corresponding messages have fields with the same number, these agree. Fields with
other numbers may be there or not. -/
structure Versions (W R : Ctx) (P : MessageIndex → MessageIndex → Prop) : Prop where
  exist : ∀ i i', P i i' → ∃ m', R.D.getMessage i' = Option.some m'
  fields : ∀ i i' m m', P i i' → W.D.getMessage i = Option.some m → R.D.getMessage i' = Option.some m' →
    ∀ a ∈ arms W.cfg m, ∀ a' ∈ arms R.cfg m', a.field.number = a'.field.number → FieldsAgree P a a'

/-- Only repeated fields are packed. -/
def PacksRepeated (C : Ctx) : Prop := ∀ i m, C.D.getMessage i = Option.some m → ∀ a ∈ arms C.cfg m,
  a.field.isPacked = true → a.kind = .arrayLike

/-! ## What the reader gets -/

/-- The integer that a value of a varint type is. -/
def varintInt : FieldType → RVal → Option Int
  | .int32, .w32 y | .enum _, .w32 y => some y.toInt
  | .int64, .w64 y => some y.toInt
  | .uint32, .w32 y => some y.toNat
  | .uint64, .w64 y => some y.toNat
  | .bool, .bool b => some (if b then 1 else 0)
  | _, _ => Option.none

/-- The value of a varint type that an integer is converted to: reduced to 32 or 64 bits; an undeclared enum value becomes the default. -/
def ofVarintInt (R : Ctx) (t : FieldType) (i : Int) : RVal :=
  match t with
  | .int32 | .uint32 => .w32 (BitVec.ofInt 32 i)
  | .int64 | .uint64 => .w64 (BitVec.ofInt 64 i)
  | .bool => .bool (decide (i ≠ 0))
  | .enum e => if BitVec.ofInt 32 i ∈ R.enumNums e then .w32 (BitVec.ofInt 32 i) else .w32 ((R.enumNums e).headD 0)
  | _ => .none

/-- `x` of type `t` is `x'` as a value of type `t'`: varints are converted, everything else that is convertible keeps its bits. -/
def Carries (R : Ctx) (sub : MessageIndex → MessageIndex → RVal → RVal → Prop) (t t' : FieldType) (x x' : RVal) : Prop :=
  match t, t' with
  | .message i, .message i' => sub i i' x x'
  | _, _ =>
    match varintInt t x with
    | Option.some i => x' = ofVarintInt R t' i
    | Option.none => x' = x

/-- The values of a field that are written (not: packed fields, maps), if the member of the struct it belongs to is `v`: the value of
a field of a oneof that is the current choice, of an optional field that is set, of a field with presence; of a field without presence
if it is not the default; the values of a repeated field. -/
def sentValues (W : Ctx) (a : Arm) (v : RVal) : List RVal :=
  match a.choice with
  | Option.some i =>
    (match v with
    | .choice j y => if j = i then [y] else []
    | _ => [])
  | Option.none =>
    match a.field.frequency.generated with
    | .singular =>
      if a.field.frequency.isOptional then
        (match v with
        | .some x => [x]
        | _ => [])
      else if a.field.hasPresence then [v]
      else if scalarEq a.field.typ v (fieldDefault W a.field) then [] else [v]
    | .arrayLike =>
      (match v with
      | .vec l => l
      | _ => [])
    | .map => []

/-- What a field with default `d` is after these values were received: a repeated field all of them, a singular field the last. -/
def received (f : Field) (d : RVal) (xs : List RVal) : RVal :=
  match f.frequency.generated with
  | .singular =>
    (match xs.getLast? with
    | Option.none => d
    | Option.some x => if f.frequency.isOptional then .some x else x)
  | .arrayLike => .vec xs
  | .map => d

/-- The member of the struct that has field `a` of the writer is `v`, the field `f'` of the reader (with default `d`) gets `v'`. -/
def FieldCarried (W R : Ctx) (sub : MessageIndex → MessageIndex → RVal → RVal → Prop) (a : Arm) (f' : Field) (d v v' : RVal) : Prop :=
  match a.kind with
  | .map => ∃ k t k' t' l l', a.field.typ = .map k t ∧ f'.typ = .map k' t' ∧ v = .map l ∧ v' = .map l' ∧
      List.Forall₂ (fun e e' => e'.1 = e.1 ∧ Carries R sub t t' e.2 e'.2) l l'
  | _ =>
    if a.packs then
      if a.field.typ.isFixedSize then
        (∃ p p', v = .pf64 p ∧ v' = .pf64 p' ∧ pfElems p' = pfElems p) ∨ (∃ p p', v = .pf32 p ∧ v' = .pf32 p' ∧ pfElems p' = pfElems p)
      else ∃ l l', v = .vec l ∧ v' = .vec l' ∧ List.Forall₂ (Carries R sub a.field.typ f'.typ) l l'
    else ∃ xs', List.Forall₂ (Carries R sub a.field.typ f'.typ) (sentValues W a v) xs' ∧ v' = received f' d xs'

/-- A member of the reader's struct (with default `d`) gets `x'`, given the writer's struct: a field what the writer's field with its
number has, or the default if the writer has no such field; a oneof the value that the writer has in one of its fields, or none if
there is none. -/
def MemberCarried (W R : Ctx) (sub : MessageIndex → MessageIndex → RVal → RVal → Prop) (m : Message) (slots : List RVal) (mem' : Member)
    (d x' : RVal) : Prop :=
  match mem' with
  | .field f' =>
    (∃ a ∈ arms W.cfg m, ∃ x, a.field.number = f'.number ∧ slots[a.slot]? = Option.some x ∧ FieldCarried W R sub a f' d x x') ∨
    ((∀ a ∈ arms W.cfg m, a.field.number ≠ f'.number) ∧ x' = d)
  | .oneof fs' =>
    (∃ a ∈ arms W.cfg m, ∃ (x y : RVal) (i' : Nat) (f' : Field) (y' : RVal), slots[a.slot]? = Option.some x ∧ y ∈ sentValues W a x ∧
      fs'[i']? = Option.some f' ∧ a.field.number = f'.number ∧ Carries R sub a.field.typ f'.typ y y' ∧ x' = .choice i' y') ∨
    (x' = .none ∧ ∀ a ∈ arms W.cfg m, ∀ f' ∈ fs', a.field.number = f'.number → ∀ x, slots[a.slot]? = Option.some x → sentValues W a x = [])

/-- The writer has the value `v` of its message `i`, nested at most `depth` deep; the reader gets `v'` as its message `i'`. -/
def Carried (W R : Ctx) : (depth : Nat) → MessageIndex → MessageIndex → RVal → RVal → Prop
  | 0, _, _, _, _ => False
  | n + 1, i, i', v, v' => ∃ (m m' : Message) (slots slots' : List RVal), W.D.getMessage i = Option.some m ∧ R.D.getMessage i' = Option.some m' ∧
      v = .struct slots ∧ v' = .struct slots' ∧ slots'.length = (members R.cfg m').length ∧
      ∀ (k : Nat) (mem' : Member), (members R.cfg m')[k]? = Option.some mem' → ∃ x', slots'[k]? = Option.some x' ∧
        MemberCarried W R (Carried W R n) m slots mem' (slotDefault R (m'.mustGenerateImplDefault R.D R.cfg) mem') x'

end QP.Gen
