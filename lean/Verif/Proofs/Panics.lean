import Verif.Proofs.FileText
import Verif.Spec.Panics
/-!
# What makes the parser panic
-/

set_option linter.unusedVariables false

namespace QP.Pbrs.Grammar
open Nom Parse

/-- What has been read as a syntax statement. -/
theorem syntaxP_inv {s r : Str} {syn : Syntax} (h : syntaxP s = .ok syn r) : ∃ t, s = t ++ r ∧ SyntaxText syn t := by
  obtain ⟨_, _, r1, r2, h1, h2, h3⟩ := Nom.delimited_inv h
  obtain ⟨r3, h4, h5⟩ := Nom.pair_inv h1
  obtain ⟨r4, h6, h7⟩ := Nom.pair_inv h5
  obtain ⟨r5, h8, h9⟩ := Nom.pair_inv h7
  obtain ⟨r6, h10, h11⟩ := Nom.pair_inv h3
  have e11 := Nom.tok_inv h11
  have e8 := Nom.tok_inv h8
  obtain ⟨g3, e10, hg3⟩ := gap0_inv h10 (by rw [e11]; simp)
  obtain ⟨g1, e6, hg1⟩ := gap0_inv h6 (by rw [e8]; simp)
  have key : (syn = .proto2 ∧ r1 = c! "\"proto2\"" ++ r2) ∨ (syn = .proto3 ∧ r1 = c! "\"proto3\"" ++ r2) := by
    obtain ⟨p, hp, h⟩ := Nom.alt_inv h2
    simp only [List.mem_cons, List.not_mem_nil, or_false] at hp
    rcases hp with rfl | rfl
    · obtain ⟨a, h, e⟩ := Nom.value_inv h; exact Or.inl ⟨e.symm, Nom.tok_inv h⟩
    · obtain ⟨a, h, e⟩ := Nom.value_inv h; exact Or.inr ⟨e.symm, Nom.tok_inv h⟩
  rcases key with ⟨rfl, e2⟩ | ⟨rfl, e2⟩
  · obtain ⟨g2, e9, hg2⟩ := gap0_inv h9 (by rw [e2]; simp)
    refine ⟨_, ?_, .proto2 hg1 hg2 hg3⟩
    rw [Nom.tok_inv h4, e6, e8, e9, e2, e10, e11]
    simp only [List.append_assoc]
  · obtain ⟨g2, e9, hg2⟩ := gap0_inv h9 (by rw [e2]; simp)
    refine ⟨_, ?_, .proto3 hg1 hg2 hg3⟩
    rw [Nom.tok_inv h4, e6, e8, e9, e2, e10, e11]
    simp only [List.append_assoc]

theorem separated_anychars {α : Type} {p : Parser α} {n : Nat} {c : Char} {r : Str} (hp : p [] = .err) :
    separatedN (many0 anychar) p (n + 1) (c :: r) = .ok [] (c :: r) := by
  simp only [separatedN, anychars, hp]
  simp

theorem scanSyntax_err {s : Str} (h : scanSyntax s = .err) : BareSyntax s := by
  simp only [scanSyntax, map, Nom.andThen] at h
  split at h
  · cases h
  · rename_i hx
    simp only [separatedList0] at hx
    split at hx
    · cases hx
    · cases hx
    · rename_i syn r hs
      cases r with
      | nil =>
        obtain ⟨t, e, ht⟩ := syntaxP_inv hs
        rw [List.append_nil] at e
        subst e
        exact ⟨syn, ht⟩
      | cons c r =>
        simp only [map, Nom.andThen, give] at hx
        rw [show (c :: r).length + 1 = (r.length + 1) + 1 from rfl, separated_anychars rfl] at hx
        cases hx
  · cases h

/-- The parser panics only on an option, a range or a syntax statement of the kinds described. -/
theorem panic_inv {s : Str} (h : readProto s = .panic) : BadOption s ∨ BadExtensions s ∨ BareSyntax s := by
  by_cases h1 : BadOption s
  · exact Or.inl h1
  by_cases h2 : BadExtensions s
  · exact Or.inr (Or.inl h2)
  refine Or.inr (Or.inr ?_)
  have hf : fileDescriptor s = .panic := by
    simp only [readProto] at h
    split at h
    · split at h <;> cases h
    · cases h
    · assumption
  simp only [fileDescriptor] at hf
  split at hf
  · rename_i syn _ _
    have := fileEvents_post (pan := False) (s := s) (syn := syn) (Or.inr ⟨h1, h2⟩)
    rw [hf] at this
    exact this.elim
  · rename_i hx; exact scanSyntax_err hx
  · rename_i hx
    have := scanSyntax_post (s := s)
    rw [hx] at this
    exact this.elim

end QP.Pbrs.Grammar
