import Verif.Spec.Equality
/-!
# Values whose wire form `==` determines

No negative zero (it equals the positive one, but has other bits), and no map with two or more entries (their order is not seen by `==`).
-/

namespace QP.Gen
open QP.Pbrs

/-- No negative zero, in a value of field type `t`. -/
def DeterminedTyp (sub : MessageIndex → RVal → Prop) (t : FieldType) (v : RVal) : Prop :=
  match t, v with
  | .message i, v => sub i v
  | .float, .w32 x => x ≠ 0x80000000#32
  | .double, .w64 x => x ≠ 0x8000000000000000#64
  | _, _ => True

/-- No negative zero in a member, and at most one entry if it is a map. -/
def DeterminedMember (sub : MessageIndex → RVal → Prop) (mem : Member) (v : RVal) : Prop :=
  match mem with
  | .field f =>
    match v with
    | .some x => DeterminedTyp sub f.typ x
    | .none => True
    | .vec l => ∀ x ∈ l, DeterminedTyp sub f.typ x
    | .pf32 p => ∀ x ∈ pfElems p, DeterminedTyp sub f.typ (.w32 x)
    | .pf64 p => ∀ x ∈ pfElems p, DeterminedTyp sub f.typ (.w64 x)
    | .map l => l.length ≤ 1 ∧ ∀ k t, f.typ = .map k t → ∀ e ∈ l, DeterminedTyp sub t e.2
    | v => DeterminedTyp sub f.typ v
  | .oneof fs => ∀ i f x, v = .choice i x → fs[i]? = Option.some f → DeterminedTyp sub f.typ x

/-- No negative zero and no map with two or more entries in a message, at any depth. -/
def Determined (C : Ctx) : (depth : Nat) → MessageIndex → RVal → Prop
  | 0, _, _ => True
  | n + 1, idx, v => ∀ m, C.D.getMessage idx = Option.some m → ∀ p ∈ (members C.cfg m).zip v.slots, DeterminedMember (Determined C n) p.1 p.2

end QP.Gen
