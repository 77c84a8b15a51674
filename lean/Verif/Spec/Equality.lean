import Verif.Model.Equality
import Mathlib.Data.List.Forall2
/-!
# When two messages are equal

Field by field; numbers as numbers (IEEE 754 for floating-point numbers), strings and bytes by content (borrowed or not), lists in order, and
maps as sets of entries.
-/

namespace QP.Gen
open QP.Pbrs

/-- The bit pattern of a NaN, of a number with `e` bits of exponent and `m` bits of mantissa: all bits of the exponent, and some of the
mantissa. -/
def IsNanBits (e m n : Nat) : Prop := n / 2 ^ m % 2 ^ e = 2 ^ e - 1 ∧ n % 2 ^ m ≠ 0

/-- Equal floating-point numbers: neither is a NaN, and they are the same, or both are zero, of any sign. -/
def FloatEqual (e m a b : Nat) : Prop := ¬ IsNanBits e m a ∧ ¬ IsNanBits e m b ∧ (a = b ∨ a % 2 ^ (e + m) = 0 ∧ b % 2 ^ (e + m) = 0)

/-- Equal numbers, strings, ... of field type `t`. -/
def ScalarEqual (t : FieldType) (a b : RVal) : Prop :=
  match t, a, b with
  | .float, .w32 x, .w32 y => FloatEqual 8 23 x.toNat y.toNat
  | .double, .w64 x, .w64 y => FloatEqual 11 52 x.toNat y.toNat
  | _, a, b => a = b

/-- Equal values of field type `t`. -/
def EqualTyp (sub : MessageIndex → RVal → RVal → Prop) (t : FieldType) (a b : RVal) : Prop :=
  match t with
  | .message i => sub i a b
  | t => ScalarEqual t a b

/-- Equal maps: one has the entries of the other, up to order. -/
def EqualMaps (eq : RVal → RVal → Prop) (l l' : List (RVal × RVal)) : Prop :=
  ∃ l₁, l₁.Perm l' ∧ List.Forall₂ (fun e e' => e.1 = e'.1 ∧ eq e.2 e'.2) l l₁

/-- Equal members. -/
def EqualMember (sub : MessageIndex → RVal → RVal → Prop) (mem : Member) (a b : RVal) : Prop :=
  match mem with
  | .field f =>
    match f.frequency.generated with
    | .singular =>
      if f.frequency.isOptional then
        (a = .none ∧ b = .none) ∨ ∃ x y, a = .some x ∧ b = .some y ∧ EqualTyp sub f.typ x y
      else EqualTyp sub f.typ a b
    | .arrayLike =>
      (∃ p q, a = .pf32 p ∧ b = .pf32 q ∧ List.Forall₂ (fun x y => ScalarEqual f.typ (.w32 x) (.w32 y)) (pfElems p) (pfElems q)) ∨
      (∃ p q, a = .pf64 p ∧ b = .pf64 q ∧ List.Forall₂ (fun x y => ScalarEqual f.typ (.w64 x) (.w64 y)) (pfElems p) (pfElems q)) ∨
      ∃ l l', a = .vec l ∧ b = .vec l' ∧ List.Forall₂ (EqualTyp sub f.typ) l l'
    | .map => ∃ k t l l', f.typ = .map k t ∧ a = .map l ∧ b = .map l' ∧ EqualMaps (EqualTyp sub t) l l'
  | .oneof fs =>
    (a = .none ∧ b = .none) ∨ ∃ i f x y, fs[i]? = Option.some f ∧ a = .choice i x ∧ b = .choice i y ∧ EqualTyp sub f.typ x y

/-- `v` and `w` are equal messages: their members are. -/
def Equal (C : Ctx) : (depth : Nat) → MessageIndex → RVal → RVal → Prop
  | 0, _, _, _ => False
  | n + 1, idx, v, w => ∃ m, C.D.getMessage idx = Option.some m ∧ v.slots.length = w.slots.length ∧
      ∀ (j : Nat) mem a b, (members C.cfg m)[j]? = Option.some mem → v.slots[j]? = Option.some a → w.slots[j]? = Option.some b →
        EqualMember (Equal C n) mem a b

/-- The keys of maps are not messages (protobuf rejects those; so does the Rust compiler, as generated structs are not `Hash`). -/
def ScalarKeys (C : Ctx) : Prop :=
  ∀ idx m, C.D.getMessage idx = Option.some m → ∀ f, Member.field f ∈ members C.cfg m → ∀ k t, f.typ = .map k t → ∀ i, k ≠ .message i

/-! ## NaNs -/

/-- No NaN in a value of field type `t`. -/
def NanFreeTyp (sub : MessageIndex → RVal → Prop) (t : FieldType) (v : RVal) : Prop :=
  match t, v with
  | .message i, v => sub i v
  | .float, .w32 x => ¬ IsNanBits 8 23 x.toNat
  | .double, .w64 x => ¬ IsNanBits 11 52 x.toNat
  | _, _ => True

/-- No NaN in a member. -/
def NanFreeMember (sub : MessageIndex → RVal → Prop) (mem : Member) (v : RVal) : Prop :=
  match mem with
  | .field f =>
    match v with
    | .some x => NanFreeTyp sub f.typ x
    | .none => True
    | .vec l => ∀ x ∈ l, NanFreeTyp sub f.typ x
    | .pf32 p => ∀ x ∈ pfElems p, NanFreeTyp sub f.typ (.w32 x)
    | .pf64 p => ∀ x ∈ pfElems p, NanFreeTyp sub f.typ (.w64 x)
    | .map l => ∀ k t, f.typ = .map k t → ∀ e ∈ l, NanFreeTyp sub t e.2
    | v => NanFreeTyp sub f.typ v
  | .oneof fs => ∀ i f x, v = .choice i x → fs[i]? = Option.some f → NanFreeTyp sub f.typ x

/-- No NaN in a message, at any depth. -/
def NanFree (C : Ctx) : (depth : Nat) → MessageIndex → RVal → Prop
  | 0, _, _ => True
  | n + 1, idx, v => ∀ m, C.D.getMessage idx = Option.some m → ∀ p ∈ (members C.cfg m).zip v.slots, NanFreeMember (NanFree C n) p.1 p.2

end QP.Gen
