import Verif.Model.Rust.Eval
import Verif.Spec.Lifetimes
/-!
# Conversions into an enum

`impl From<T> for E { fn from(f: T) -> E { E::V(f) } }`: when Rust accepts such items, and what they do.
-/

namespace QP.Rust
open QP.Pbrs QP.Gen

/-- A conversion: from which type, into which variant. -/
structure FromImpl where
  ty : Ty
  variant : Str

/-- What is written: `impl From<T> for E { fn from(f: T) -> E { E::V(f) } }`. -/
def FromImpl.doc (enum : Str) (i : FromImpl) : Doc :=
  ln d!"impl From<{i.ty.doc}> for {enum} \{" ++ ln d!"   fn from(f: {i.ty.doc}) -> {enum} \{"
    ++ ln d!"      {enum}::{i.variant}(f)" ++ ln d!"   }" ++ ln d!"}"

/-- Rust accepts the item, if the enum has these variants (and the lifetime `'a` as a parameter, if `l`): `'a` is not declared in the item, so the type
must do without it; and so must the enum, whose lifetime cannot be left out in the result of a function that has nothing to take it from; and
the argument has the type of the variant. -/
structure FromImpl.Accepted (l : Bool) (variants : List (Str × Ty)) (i : FromImpl) : Prop where
  declared : i.ty.borrows = false
  result : l = false
  typed : (i.variant, i.ty) ∈ variants

/-- Two implementations of `From<T>` for one enum are rejected. -/
def Coherent (is : List FromImpl) : Prop := (is.map (·.ty)).Nodup

/-- `From::from`, as `x.into()` finds it by the type of `x`; a variant is its number and its value. -/
def Converts (variants : List (Str × Ty)) (is : List FromImpl) (t : Ty) (x r : RVal) : Prop :=
  ∃ i ∈ is, i.ty = t ∧ ∃ k, variants[k]? = some (i.variant, t) ∧ r = .choice k x

end QP.Rust
