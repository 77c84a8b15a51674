import Verif.Props.Names
/-!
# C47: which names are changed
-/

namespace QP.Pbrs

/-- Words that were reserved in Rust 1.0 and are not any more, and a trait that code generated by older versions used. -/
def formerNames : List Str := [c! "alignof", c! "offsetof", c! "pure", c! "sizeof", c! "Write"]

/-- The words that have a meaning in generated code (`macro` is missing: `C47_refuted_keywords`), and those that had one. -/
def ListedWord (s : Str) : Prop :=
  s ∈ strictKeywords ∨ (s ∈ reservedKeywords ∧ s ≠ c! "macro") ∨ s ∈ usedNames ∨ s ∈ formerNames

theorem listedWord_iff (s : Str) : ListedWord s ↔ s ∈ rustKeywords := by
  have h1 : ∀ k ∈ strictKeywords, k ∈ rustKeywords := by decide +kernel
  have h2 : ∀ k ∈ reservedKeywords, k ≠ c! "macro" → k ∈ rustKeywords := by decide +kernel
  have h3 : ∀ k ∈ usedNames, k ∈ rustKeywords := by decide +kernel
  have h4 : ∀ k ∈ formerNames, k ∈ rustKeywords := by decide +kernel
  have h5 : ∀ k ∈ rustKeywords, k ∈ strictKeywords ∨ (k ∈ reservedKeywords ∧ k ≠ c! "macro") ∨ k ∈ usedNames ∨ k ∈ formerNames := by decide +kernel
  constructor
  · rintro (h | ⟨h, h'⟩ | h | h)
    · exact h1 s h
    · exact h2 s h h'
    · exact h3 s h
    · exact h4 s h
  · exact h5 s

/-- C47: each segment of a path that is one of these words gets `_pb`, all others are left alone. -/
theorem C47_exact (s : Str) : (splitDot (sanitizeKeyword s)).length = (splitDot s).length ∧
    ∀ (i : Nat) (u : Str), (splitDot s)[i]? = some u → ((ListedWord u → (splitDot (sanitizeKeyword s))[i]? = some (u ++ c! "_pb")) ∧
      (¬ ListedWord u → (splitDot (sanitizeKeyword s))[i]? = some u)) := by
  rw [split_sanitize]
  refine ⟨List.length_map _, fun i u hu => ?_⟩
  rw [List.getElem?_map, hu]
  refine ⟨fun h => ?_, fun h => ?_⟩
  · have := (listedWord_iff u).mp h
    simp only [Option.map_some, sanitizeSegment, List.contains_iff_mem.mpr this, if_true]
    rfl
  · have : ¬ u ∈ rustKeywords := fun hk => h ((listedWord_iff u).mpr hk)
    simp only [Option.map_some, sanitizeSegment, List.contains_iff_mem, this, if_false]

/-- `a.Write.type_x` becomes `a.Write_pb.type_x`. -/
example : sanitizeKeyword (c! "a.Write.type_x") = c! "a.Write_pb.type_x" ∧ ListedWord (c! "Write") ∧ ¬ ListedWord (c! "type_x") :=
  ⟨by decide +kernel, (listedWord_iff _).mpr (by decide +kernel), fun h => absurd ((listedWord_iff _).mp h) (by decide +kernel)⟩

end QP.Pbrs
