import Verif.Model.Rust.Eval
import Verif.Spec.Message
/-!
# The values of Rust types

Which values the types of a Rust program have. Nothing here is about protocol buffers.

A `PackedFixed<T>` is taken to hold whole elements (what safe use of it gives: C30); a map has no key twice.
-/

namespace QP.Rust
open QP.Pbrs QP.Gen Spec

/-- The number of bytes of an element of a `PackedFixed`. -/
def Ty.width : Ty → Nat
  | .i32 | .u32 | .f32 => 4
  | .i64 | .u64 | .f64 => 8
  | _ => 0

/-- The values of a type; `sub p` are those of the struct or enum `p`. -/
def TyVal (sub : Path → RVal → Prop) : Ty → RVal → Prop
  | .i32, v | .u32, v | .f32, v => ∃ x, v = .w32 x
  | .i64, v | .u64, v | .f64, v => ∃ x, v = .w64 x
  | .bool, v => ∃ b, v = .bool b
  | .cowStr, v | .string, v => ∃ b, v = .bytes b ∧ ValidUtf8 b
  | .cowBytes, v | .vecU8, v => ∃ b, v = .bytes b
  | .adt p _, v => sub p v
  | .option t, v => v = .none ∨ ∃ x, v = .some x ∧ TyVal sub t x
  | .box t, v => TyVal sub t v
  | .vec t, v => ∃ l, v = .vec l ∧ ∀ x ∈ l, TyVal sub t x
  | .packed t, v => (t.width = 4 ∧ ∃ p, v = .pf32 p ∧ PfOk p) ∨ (t.width = 8 ∧ ∃ p, v = .pf64 p ∧ PfOk p)
  | .kvmap k t, v => ∃ l, v = .map l ∧ (∀ e ∈ l, TyVal sub k e.1 ∧ TyVal sub t e.2) ∧ l.Pairwise (fun a b => keyEq a.1 b.1 = false)
  | .usize, _ | .str, _ | .slice, _ | .ref _, _ => False

/-- The values of the struct or enum at a path, nested at most `depth` deep. -/
def AdtVal (P : Prog) : (depth : Nat) → Path → RVal → Prop
  | 0, _, _ => False
  | n + 1, p, v =>
    (∃ s slots, P.structs p = some s ∧ v = .struct slots ∧ slots.length = s.fields.length ∧
      ∀ x ∈ s.fields.zip slots, TyVal (AdtVal P n) x.1.2 x.2) ∨
    (∃ vs, P.oneofs p = some vs ∧ (v = .none ∨ ∃ i x t w, vs[i]? = some (x, t) ∧ v = .choice i w ∧ TyVal (AdtVal P n) t w)) ∨
    (∃ nums, P.enums p = some nums ∧ ∃ x, v = .w32 x ∧ x ∈ nums)

/-- `v` is a value of the type `t` in the program `P`. -/
def ValueOf (P : Prog) (t : Ty) (v : RVal) : Prop := ∃ depth, TyVal (AdtVal P depth) t v

/-- No path is both a struct and an enum: Rust rejects two types of one name. -/
structure OneKind (P : Prog) : Prop where
  structOneof : ∀ p s vs, P.structs p = some s → P.oneofs p = some vs → False
  structEnum : ∀ p s ns, P.structs p = some s → P.enums p = some ns → False
  oneofEnum : ∀ p vs ns, P.oneofs p = some vs → P.enums p = some ns → False

end QP.Rust
