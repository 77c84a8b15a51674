import Verif.Spec.Message
/-!
# Messages whose maps are iterated in another order

A `HashMap` has no order: two equal maps, and even the same map in two runs of the program, can be iterated in different orders. A value of
the model has its maps as lists, in the order in which they are iterated.
-/

namespace QP.Gen

mutual
/-- The same value, with the maps in it (at any depth) iterated in another order. -/
inductive Same : RVal → RVal → Prop
  | refl (v) : Same v v
  | some {v w} : Same v w → Same (.some v) (.some w)
  | choice {i v w} : Same v w → Same (.choice i v) (.choice i w)
  | vec {l l'} : SameAll l l' → Same (.vec l) (.vec l')
  | struct {l l'} : SameAll l l' → Same (.struct l) (.struct l')
  | map {l l₁ l'} : SameEntries l l₁ → l₁.Perm l' → Same (.map l) (.map l')
/-- One after the other. -/
inductive SameAll : List RVal → List RVal → Prop
  | nil : SameAll [] []
  | cons {v w l l'} : Same v w → SameAll l l' → SameAll (v :: l) (w :: l')
/-- The same keys, and the same values. -/
inductive SameEntries : List (RVal × RVal) → List (RVal × RVal) → Prop
  | nil : SameEntries [] []
  | cons {k v w l l'} : Same v w → SameEntries l l' → SameEntries ((k, v) :: l) ((k, w) :: l')
end

mutual
/-- Every map in the value, at any depth, is iterated by ascending keys, as a `BTreeMap` is. -/
def RVal.Ascending (lt : RVal → RVal → Prop) : RVal → Prop
  | .w32 _ | .w64 _ | .bool _ | .bytes _ | .none | .pf32 _ | .pf64 _ => True
  | .some v => v.Ascending lt
  | .choice _ v => v.Ascending lt
  | .vec l => RVal.AscendingAll lt l
  | .struct l => RVal.AscendingAll lt l
  | .map l => l.Pairwise (fun a b => lt a.1 b.1) ∧ RVal.AscendingValues lt l
def RVal.AscendingAll (lt : RVal → RVal → Prop) : List RVal → Prop
  | [] => True
  | v :: l => v.Ascending lt ∧ RVal.AscendingAll lt l
def RVal.AscendingValues (lt : RVal → RVal → Prop) : List (RVal × RVal) → Prop
  | [] => True
  | (_, v) :: l => v.Ascending lt ∧ RVal.AscendingValues lt l
end

end QP.Gen
