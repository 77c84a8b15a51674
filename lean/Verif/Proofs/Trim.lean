import Verif.Proofs.Lexical
/-!
# `str::trim` and `str::parse`
-/

set_option linter.unusedVariables false

namespace QP.Pbrs.Grammar
open Nom Parse

theorem visible_not_white {c : Char} (h : Visible c) : isWhite c = false := by
  obtain ⟨h1, h2⟩ := h
  rw [← Bool.not_eq_true]
  simp only [isWhite, Bool.or_eq_true, Bool.and_eq_true, decide_eq_true_eq, beq_iff_eq]
  omega

theorem blank_white {c : Char} (h : Blank c) : isWhite c = true := by
  rcases h with rfl | rfl | rfl | rfl <;> decide

theorem visible_not_blank {c : Char} (h : Visible c) : ¬ Blank c := by
  intro hb
  have := blank_white hb
  rw [visible_not_white h] at this
  cases this

theorem trim_ok {v b : Str} (hh : ∃ c, v.head? = some c ∧ Visible c) (hl : ∃ c, v.getLast? = some c ∧ Visible c)
    (hb : Blanks b) : trim (v ++ b) = v := by
  obtain ⟨c, h1, h2⟩ := hh
  obtain ⟨d, h3, h4⟩ := hl
  have e1 : (v ++ b).dropWhile isWhite = v ++ b := by
    cases v with
    | nil => cases h1
    | cons x xs => cases h1; simp [visible_not_white h2]
  have e2 : (v ++ b).reverse.dropWhile isWhite = v.reverse := by
    rw [List.reverse_append, List.dropWhile_append_of_pos]
    · have : v.reverse.head? = some d := by rw [List.head?_reverse]; exact h3
      cases hv : v.reverse with
      | nil => rfl
      | cons x xs =>
        rw [hv] at this
        cases this
        simp [visible_not_white h4]
    · intro x hx; exact blank_white (hb x (by simpa using hx))
  rw [trim, e1, e2, List.reverse_reverse]

theorem digit_visible {c : Char} (h : isDigit c = true) : Visible c := by
  simp only [isDigit, Bool.and_eq_true, decide_eq_true_eq, Char.le_def, UInt32.le_iff_toNat_le] at h
  have e1 : '0'.val.toNat = 48 := rfl
  have e2 : '9'.val.toNat = 57 := rfl
  rw [e1, e2] at h
  exact ⟨by show 33 ≤ c.val.toNat; omega, by show c.val.toNat ≤ 126; omega⟩

theorem parseI32_ok {n : Nat} {s : Str} (h : Decimal n s) (hn : n < 2 ^ 31) : parseI32 s = some (n : Int) := by
  obtain ⟨h1, h2, h3⟩ := h.facts
  have hall : s.all isDigit = true := List.all_eq_true.mpr h2
  have he : s.isEmpty = false := by cases s with
    | nil => exact absurd rfl h1
    | cons c cs => rfl
  unfold parseI32
  split
  rename_i neg d hd
  split at hd
  · exact absurd (h2 '-' (by simp)) (by decide)
  · exact absurd (h2 '+' (by simp)) (by decide)
  · cases hd
    simp only [hall, he, h3]
    simp
    omega

theorem trim_both {b1 w b2 : Str} (h1 : Blanks b1)
    (hw : (∃ c, w.head? = some c ∧ Visible c) ∧ ∃ c, w.getLast? = some c ∧ Visible c) (h2 : Blanks b2) :
    trim (b1 ++ w ++ b2) = w := by
  have : trim (b1 ++ w ++ b2) = trim (w ++ b2) := by
    rw [trim, trim, List.append_assoc, List.dropWhile_append_of_pos fun c hc => blank_white (h1 c hc)]
  rw [this]
  exact trim_ok hw.1 hw.2 h2

theorem Decimal.visible {n : Nat} {s : Str} (h : Decimal n s) :
    (∃ c, s.head? = some c ∧ Visible c) ∧ ∃ c, s.getLast? = some c ∧ Visible c := by
  obtain ⟨f1, f2, _⟩ := h.facts
  refine ⟨?_, s.getLast f1, List.getLast?_eq_some_getLast f1, digit_visible (f2 _ (List.getLast_mem f1))⟩
  cases s with
  | nil => exact absurd rfl f1
  | cons c cs => exact ⟨c, rfl, digit_visible (f2 c (by simp))⟩

theorem digit_of {c : Char} (h : isDigit c = true) : ∃ d, d < 10 ∧ c = d.digitChar := by
  have hv : 48 ≤ c.toNat ∧ c.toNat ≤ 57 := by
    simp only [isDigit, Bool.and_eq_true, decide_eq_true_eq] at h
    exact ⟨h.1, h.2⟩
  refine ⟨c.toNat - 48, by omega, ?_⟩
  have key : ∀ n, n < 10 → Char.ofNat (n + 48) = n.digitChar := by decide
  rw [← key _ (by omega), Nat.sub_add_cancel hv.1, Char.ofNat_toNat]

theorem decimal_of {s : Str} (hne : s ≠ []) (h : ∀ c ∈ s, isDigit c = true) : ∃ n, Decimal n s := by
  have key : ∀ l : Str, l ≠ [] → (∀ c ∈ l, isDigit c = true) → ∃ n, Decimal n l.reverse := by
    intro l
    induction l with
    | nil => intro h; exact absurd rfl h
    | cons c l ih =>
      intro _ h
      obtain ⟨d, hd, rfl⟩ := digit_of (h c (by simp))
      by_cases hl : l = []
      · subst hl; exact ⟨d, .digit hd⟩
      · obtain ⟨n, hn⟩ := ih hl fun c hc => h c (by simp [hc])
        rw [List.reverse_cons]
        exact ⟨_, .more hn hd⟩
  have := key s.reverse (by simpa using hne) (fun c hc => h c (by simpa using hc))
  rwa [List.reverse_reverse] at this

end QP.Pbrs.Grammar
