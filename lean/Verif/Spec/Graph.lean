/-!
# Graphs
-/

namespace QP.Spec

/-- `b` can be reached from `a` along edges (in zero or more steps). -/
inductive Path {α : Type} (E : α → α → Prop) : α → α → Prop
  | refl (a : α) : Path E a a
  | step {a b c : α} : Path E a b → E b c → Path E a c

theorem Path.trans {α : Type} {E : α → α → Prop} {a b c : α} (h : Path E a b) (h' : Path E b c) : Path E a c := by
  induction h' with
  | refl => exact h
  | step _ e ih => exact ih.step e

theorem Path.edge {α : Type} {E : α → α → Prop} {a b : α} (h : E a b) : Path E a b := (Path.refl a).step h

end QP.Spec
