import Verif.Proofs.ParserPost
/-!
# The characters of names that the parser returns
-/

set_option linter.unusedVariables false

namespace QP.Pbrs.Parse
open Nom

/-- What the parser consumes consists of characters of a kind. -/
def Eats {α : Type} (P : Char → Prop) (p : Parser α) : Prop :=
  ∀ s a r, p s = .ok a r → ∃ w, s = w ++ r ∧ ∀ c ∈ w, P c

namespace Eats
variable {α β : Type} {P : Char → Prop}

theorem andThen {p : Parser α} {q : α → Parser β} (hp : Eats P p) (hq : ∀ a, Eats P (q a)) : Eats P (Nom.andThen p q) := by
  intro s a r h
  obtain ⟨b, t, h1, h2⟩ := andThen_inv h
  obtain ⟨w, rfl, hw⟩ := hp _ _ _ h1
  obtain ⟨w', rfl, hw'⟩ := hq _ _ _ _ h2
  exact ⟨w ++ w', by simp, fun c hc => (List.mem_append.mp hc).elim (hw c) (hw' c)⟩

theorem give (a : α) : Eats P (Nom.give a) := by
  intro s b r h
  cases h
  exact ⟨[], rfl, by simp⟩

theorem map {p : Parser α} {g : α → β} (hp : Eats P p) : Eats P (Nom.map p g) := hp.andThen fun _ => give _

theorem pair {p : Parser α} {q : Parser β} (hp : Eats P p) (hq : Eats P q) : Eats P (Nom.pair p q) :=
  hp.andThen fun _ => hq.map

theorem tok {k : Str} (h : ∀ c ∈ k, P c) : Eats P (Nom.tok k) := by
  intro s a r hs
  exact ⟨k, tok_inv hs, h⟩

theorem takeWhile1 {ok : Char → Bool} (h : ∀ c, ok c = true → P c) : Eats P (Nom.takeWhile1 ok) := by
  intro s a r hs
  unfold Nom.takeWhile1 at hs
  split at hs
  · cases hs
  · cases hs
    refine ⟨s.takeWhile ok, (List.takeWhile_append_dropWhile ..).symm, fun c hc => h c ?_⟩
    have := List.all_takeWhile (p := ok) (l := s)
    exact List.all_eq_true.mp this c hc

theorem alt {ps : List (Parser α)} (h : ∀ p ∈ ps, Eats P p) : Eats P (Nom.alt ps) := by
  intro s a r hs
  obtain ⟨p, hp, h1⟩ := alt_inv hs
  exact h p hp _ _ _ h1

theorem opt {p : Parser α} (hp : Eats P p) : Eats P (Nom.opt p) := by
  intro s a r h
  unfold Nom.opt at h
  split at h
  · cases h; exact hp _ _ _ ‹_›
  · cases h
  · cases h; exact ⟨[], rfl, by simp⟩

theorem many0 {p : Parser α} (hp : Eats P p) : Eats P (Nom.many0 p) := by
  have key : ∀ n s a r, Nom.many0N p n s = .ok a r → ∃ w, s = w ++ r ∧ ∀ c ∈ w, P c := by
    intro n
    induction n with
    | zero => intro s a r h; cases h
    | succ n ih =>
      intro s a r h
      simp only [Nom.many0N] at h
      split at h
      · cases h; exact ⟨[], rfl, by simp⟩
      · cases h
      · rename_i b t h1
        obtain ⟨w, rfl, hw⟩ := hp _ _ _ h1
        split at h
        · split at h
          · rename_i l t' h2
            cases h
            obtain ⟨w', rfl, hw'⟩ := ih _ _ _ h2
            exact ⟨w ++ w', by simp, fun c hc => (List.mem_append.mp hc).elim (hw c) (hw' c)⟩
          · cases h
          · cases h
        · cases h
  exact fun s => key _ s

theorem separatedList1 {sep : Parser β} {p : Parser α} (hs : Eats P sep) (hp : Eats P p) : Eats P (Nom.separatedList1 sep p) := by
  have key : ∀ n s a r, Nom.separatedN sep p n s = .ok a r → ∃ w, s = w ++ r ∧ ∀ c ∈ w, P c := by
    intro n
    induction n with
    | zero => intro s a r h; cases h
    | succ n ih =>
      intro s a r h
      simp only [Nom.separatedN] at h
      split at h
      · cases h; exact ⟨[], rfl, by simp⟩
      · cases h
      · rename_i b t h1
        obtain ⟨w, rfl, hw⟩ := hs _ _ _ h1
        split at h
        · split at h
          · cases h; exact ⟨[], rfl, by simp⟩
          · cases h
          · rename_i b2 t2 h2
            obtain ⟨w2, rfl, hw2⟩ := hp _ _ _ h2
            split at h
            · rename_i l t' h3
              cases h
              obtain ⟨w', rfl, hw'⟩ := ih _ _ _ h3
              refine ⟨w ++ (w2 ++ w'), by simp, fun c hc => ?_⟩
              rcases List.mem_append.mp hc with hc | hc
              · exact hw c hc
              · exact (List.mem_append.mp hc).elim (hw2 c) (hw' c)
            · cases h
            · cases h
        · cases h
  refine hp.andThen fun a s b r h => ?_
  obtain ⟨l, h1, _⟩ := map_inv h
  exact key _ _ _ _ h1

/-- What `recognize` returns is what was consumed. -/
theorem recognized {p : Parser α} (hp : Eats P p) {s w r : Str} (h : recognize p s = .ok w r) : s = w ++ r ∧ ∀ c ∈ w, P c := by
  unfold recognize at h
  split at h
  · rename_i a t h1
    cases h
    obtain ⟨w, rfl, hw⟩ := hp _ _ _ h1
    have : (w ++ r).take ((w ++ r).length - r.length) = w := by simp
    rw [this]
    exact ⟨rfl, hw⟩
  · cases h
  · cases h

end Eats

/-- A letter, a digit or an underscore. -/
def IdentChar (c : Char) : Prop := isAlpha c = true ∨ isDigit c = true ∨ c = '_'

theorem word_eats : Eats IdentChar (pair (alt [takeWhile1 isAlpha, tok (c! "_")])
    (many0 (alt [takeWhile1 (fun c => isAlpha c || isDigit c), tok (c! "_")]))) := by
  refine .pair (.alt fun p hp => ?_) (.many0 (.alt fun p hp => ?_))
  · rcases List.mem_cons.mp hp with rfl | hp
    · exact .takeWhile1 fun c h => Or.inl h
    · cases List.mem_singleton.mp hp
      exact .tok fun c hc => Or.inr (Or.inr (List.mem_singleton.mp hc))
  · rcases List.mem_cons.mp hp with rfl | hp
    · refine .takeWhile1 fun c h => ?_
      rcases Bool.or_eq_true _ _ ▸ h with h | h
      · exact Or.inl h
      · exact Or.inr (Or.inl h)
    · cases List.mem_singleton.mp hp
      exact .tok fun c hc => Or.inr (Or.inr (List.mem_singleton.mp hc))

theorem word_chars {s w r : Str} (h : word s = .ok w r) : ∀ c ∈ w, IdentChar c := (word_eats.recognized h).2

theorem name_chars {s w r : Str} (h : qualifiableName s = .ok w r) : ∀ c ∈ w, IdentChar c ∨ c = '.' := by
  unfold qualifiableName at h
  unfold verify at h
  split at h
  · rename_i a t h1
    split at h
    · cases h
      have hw : Eats (fun c => IdentChar c ∨ c = '.') word := fun s a r h => by
        obtain ⟨h1, h2⟩ := word_eats.recognized h
        exact ⟨a, h1, fun c hc => Or.inl (h2 c hc)⟩
      have hd : Eats (fun c => IdentChar c ∨ c = '.') (tok (c! ".")) := .tok fun c hc => Or.inr (List.mem_singleton.mp hc)
      exact (Eats.recognized (.pair (.opt hd) (.separatedList1 hd hw)) h1).2
    · cases h
  · cases h
  · cases h

theorem package_chars {s p r : Str} (h : packageP s = .ok p r) : ∀ c ∈ p, IdentChar c ∨ c = '.' := by
  obtain ⟨_, _, _, _, _, h2, _⟩ := delimited_inv h
  exact name_chars h2

/-- The package of a file consists of letters, digits, underscores and dots. -/
theorem readProto_package {s r : Str} {F : File} (h : readProto s = .ok F r) : ∀ c ∈ F.desc.package, IdentChar c ∨ c = '.' := by
  unfold readProto at h
  split at h
  · rename_i f rem hf
    split at h
    · cases h
      unfold fileDescriptor at hf
      split at hf
      · rename_i syn _ _
        obtain ⟨l, h1, rfl⟩ := map_inv hf
        have hl : ∀ e ∈ l, ∀ p, e = .package p → ∀ c ∈ p, IdentChar c ∨ c = '.' := by
          have key : ∀ n s l r, many0N (fileEvent syn) n s = .ok l r → ∀ e ∈ l, ∀ p, e = .package p → ∀ c ∈ p, IdentChar c ∨ c = '.' := by
            intro n
            induction n with
            | zero => intro s a r h; cases h
            | succ n ih =>
              intro s a r h
              simp only [many0N] at h
              split at h
              · cases h; intro e he; cases he
              · cases h
              · rename_i b t h1
                split at h
                · split at h
                  · rename_i l t' h2
                    cases h
                    intro e he p hp
                    rcases List.mem_cons.mp he with rfl | he
                    · subst hp
                      obtain ⟨q, hq, h1⟩ := alt_inv h1
                      simp only [List.mem_cons, List.not_mem_nil, or_false] at hq
                      rcases hq with rfl | rfl | rfl | rfl | rfl | rfl | rfl | rfl | rfl <;>
                        obtain ⟨x, hx, he⟩ := map_inv h1 <;> cases he
                      exact package_chars hx
                    · exact ih _ _ _ h2 e he p hp
                  · cases h
                  · cases h
                · cases h
          exact key _ _ _ _ h1
        have key : ∀ (l : List Event) (d : File), (∀ c ∈ d.desc.package, IdentChar c ∨ c = '.') →
            (∀ e ∈ l, ∀ p, e = .package p → ∀ c ∈ p, IdentChar c ∨ c = '.') →
            ∀ c ∈ (l.foldl Event.apply d).desc.package, IdentChar c ∨ c = '.' := by
          intro l
          induction l with
          | nil => intro d hd _; exact hd
          | cons e l ih =>
            intro d hd h
            refine ih _ ?_ fun e' he' => h e' (by simp [he'])
            cases e with
            | package p => exact h _ (by simp) p rfl
            | _ => exact hd
        exact key l {} (by intro c hc; cases hc) hl
      · cases hf
      · cases hf
    · cases h
  · cases h
  · cases h

end QP.Pbrs.Parse
