import Verif.Props.Added
/-!
# C50 on files: `--error-cycle` and oneofs
-/

namespace QP.Pbrs
namespace CycleTextExample
open RunExample MeaningExample AddedExample

/-- A message that may hold itself in a oneof. -/
def self : Str := c! "message A { oneof o { A a = 1; bool b = 2; } }"

/-- The same in proto3. -/
def self3 : Str := c! "syntax = \"proto3\"; " ++ self

/-- A run with `--error-cycle`. -/
def strict : Job := { abJob with cfg := { errorCycle := true } }

theorem some_of {p : Str} : ∀ {o : Option Str}, (match o with | some t => occurs p t | none => false) = true → ∃ t, o = some t ∧ p <:+: t
  | some t, h => ⟨t, rfl, (occurs_iff _ _).mp h⟩
  | none, h => by cases h

/-- **C50, refuted for oneofs.** With `--error-cycle` a proto2 file whose only recursion is through a oneof is rejected as a cycle, although a value may end it by choosing
the other variant, and although without the option a box is all that is needed: the parser calls the fields of a oneof required in proto2. The same file in proto3 is
accepted with the option, and has the box. -/
theorem C50_refuted_oneof : (∃ d', writeProto [] 1 strict (disk [(c! "x.proto", self)] []) = (.error (.pbrs (.compile (.cycle [c! "A"]))), d')) ∧
    (∃ t, abJob.text 1 (disk [(c! "x.proto", self)] []) = some t ∧ c! "a(Box<A>)" <:+: t) ∧
    ∃ t, strict.text 1 (disk [(c! "x.proto", self3)] []) = some t ∧ c! "a(Box<A>)" <:+: t := by
  have h1 : (match (writeProto [] 1 strict (disk [(c! "x.proto", self)] [])).1 with | .error (.pbrs (.compile (.cycle l))) => l == [c! "A"] | _ => false) = true := by decide +kernel
  have h2 : (match abJob.text 1 (disk [(c! "x.proto", self)] []) with | some t => occurs (c! "a(Box<A>)") t | none => false) = true := by decide +kernel
  have h3 : (match strict.text 1 (disk [(c! "x.proto", self3)] []) with | some t => occurs (c! "a(Box<A>)") t | none => false) = true := by decide +kernel
  refine ⟨?_, ?_, ?_⟩
  · split at h1
    · rename_i l e
      refine ⟨(writeProto [] 1 strict (disk [(c! "x.proto", self)] [])).2, ?_⟩
      rw [← eq_of_beq h1, ← e]
    · cases h1
  · exact some_of (o := abJob.text 1 (disk [(c! "x.proto", self)] [])) h2
  · exact some_of (o := strict.text 1 (disk [(c! "x.proto", self3)] [])) h3

end CycleTextExample
end QP.Pbrs
