import Verif.Spec.Grammar
/-!
# What makes the parser panic
-/

namespace QP.Pbrs.Grammar

/-- An option `packed` or `deprecated` whose value (what is between the `=` and the next `]`) is not, blanks aside, `true` or
`false`. -/
def BadOption (s : Str) : Prop :=
  ∃ a k g1 g2 v b, s = a ++ k ++ g1 ++ c! "=" ++ g2 ++ v ++ c! "]" ++ b ∧ (k = c! "packed" ∨ k = c! "deprecated") ∧
    Gap g1 ∧ Gap g2 ∧ ']' ∉ v ∧ ¬ ∃ b1 w b2, v = b1 ++ w ++ b2 ∧ Blanks b1 ∧ Blanks b2 ∧ (w = c! "true" ∨ w = c! "false")

/-- An `extensions` statement whose range ends in something that is not, blanks aside, a number or `max`. -/
def BadExtensions (s : Str) : Prop :=
  ∃ a g1 num g2 g3 v b, s = a ++ c! "extensions" ++ g1 ++ num ++ g2 ++ c! "to" ++ g3 ++ v ++ c! ";" ++ b ∧
    Gap1 g1 ∧ (∃ n, Decimal n num) ∧ Gap g2 ∧ Gap1 g3 ∧ ';' ∉ v ∧
    ¬ ∃ b1 w b2, v = b1 ++ w ++ b2 ∧ Blanks b1 ∧ Blanks b2 ∧ (w = c! "max" ∨ ∃ n, Decimal n w ∧ n < 2 ^ 31)

/-- A file that is a syntax statement, and nothing after it. -/
def BareSyntax (s : Str) : Prop := ∃ syn, SyntaxText syn s

end QP.Pbrs.Grammar
