import Verif.Proofs.Lexical
import Verif.Spec.Panics
/-!
# What the parsers have read when they succeed
-/

set_option linter.unusedVariables false

namespace QP.Pbrs.Nom

variable {α β γ : Type}

theorem andThen_inv {p : Parser α} {q : α → Parser β} {s t : Str} {b : β} (h : andThen p q s = .ok b t) :
    ∃ a r, p s = .ok a r ∧ q a r = .ok b t := by
  simp only [andThen] at h
  split at h
  · rename_i a r hp; exact ⟨a, r, hp, h⟩
  · cases h
  · cases h

theorem map_inv {p : Parser α} {g : α → β} {s t : Str} {b : β} (h : map p g s = .ok b t) : ∃ a, p s = .ok a t ∧ g a = b := by
  obtain ⟨a, r, h1, h2⟩ := andThen_inv h
  cases h2
  exact ⟨a, h1, rfl⟩

theorem value_inv {p : Parser α} {b c : β} {s t : Str} (h : value b p s = .ok c t) : ∃ a, p s = .ok a t ∧ b = c := map_inv h

theorem pair_inv {p : Parser α} {q : Parser β} {s t : Str} {x : α × β} (h : pair p q s = .ok x t) :
    ∃ r, p s = .ok x.1 r ∧ q r = .ok x.2 t := by
  obtain ⟨a, r, h1, h2⟩ := andThen_inv h
  obtain ⟨b, h3, rfl⟩ := map_inv h2
  exact ⟨r, h1, h3⟩

theorem preceded_inv {p : Parser α} {q : Parser β} {s t : Str} {b : β} (h : preceded p q s = .ok b t) :
    ∃ a r, p s = .ok a r ∧ q r = .ok b t := andThen_inv h

theorem terminated_inv {p : Parser α} {q : Parser β} {s t : Str} {a : α} (h : terminated p q s = .ok a t) :
    ∃ b r, p s = .ok a r ∧ q r = .ok b t := by
  obtain ⟨a', r, h1, h2⟩ := andThen_inv h
  obtain ⟨b, h3, rfl⟩ := map_inv h2
  exact ⟨b, r, h1, h3⟩

theorem delimited_inv {p : Parser α} {q : Parser β} {e : Parser γ} {s t : Str} {b : β} (h : delimited p q e s = .ok b t) :
    ∃ a c r u, p s = .ok a r ∧ q r = .ok b u ∧ e u = .ok c t := by
  obtain ⟨a, r, h1, h2⟩ := preceded_inv h
  obtain ⟨c, u, h3, h4⟩ := terminated_inv h2
  exact ⟨a, c, r, u, h1, h3, h4⟩

theorem separatedPair_inv {p : Parser α} {q : Parser β} {e : Parser γ} {s t : Str} {x : α × γ} (h : separatedPair p q e s = .ok x t) :
    ∃ b r u, p s = .ok x.1 r ∧ q r = .ok b u ∧ e u = .ok x.2 t := by
  obtain ⟨r, h1, h2⟩ := pair_inv h
  obtain ⟨b, u, h3, h4⟩ := preceded_inv h2
  exact ⟨b, r, u, h1, h3, h4⟩

theorem tok_inv {k s a r : Str} (h : tok k s = .ok a r) : s = k ++ r := by
  simp only [tok] at h
  split at h
  · rename_i hp
    cases h
    rw [List.isPrefixOf_iff_prefix] at hp
    obtain ⟨t, rfl⟩ := hp
    simp
  · cases h

theorem takeUntil_inv {c : Char} {s a r : Str} (h : takeUntil [c] s = .ok a r) : s = a ++ r ∧ c ∉ a ∧ ∃ t, r = c :: t := by
  simp only [takeUntil] at h
  split at h
  · rename_i x y hxy
    cases h
    induction s generalizing a with
    | nil => simp [splitAt?] at hxy
    | cons d ds ih =>
      rw [splitAt?] at hxy
      split at hxy
      · rename_i hp
        simp only [Option.some.injEq, Prod.mk.injEq] at hxy
        obtain ⟨rfl, rfl⟩ := hxy
        simp only [List.isPrefixOf, Bool.and_true, beq_iff_eq] at hp
        exact ⟨rfl, by simp, ds, by rw [hp]⟩
      · rename_i hp
        simp only [Option.map_eq_some_iff] at hxy
        obtain ⟨⟨a', r'⟩, h1, h2⟩ := hxy
        simp only [Prod.mk.injEq] at h2
        obtain ⟨rfl, rfl⟩ := h2
        obtain ⟨e, hn, ht⟩ := ih h1
        refine ⟨by rw [e]; rfl, ?_, ht⟩
        simp only [List.isPrefixOf, Bool.and_true, beq_iff_eq] at hp
        simp only [List.mem_cons, not_or]
        exact ⟨hp, hn⟩
  · cases h

theorem splitAt_inv {pat s a r : Str} (hp : pat ≠ []) (h : splitAt? pat s = some (a, r)) :
    s = a ++ r ∧ pat <+: r ∧ ¬ pat <:+: a ++ pat.dropLast := by
  induction s generalizing a with
  | nil =>
    rw [splitAt?] at h
    split at h
    · rename_i he; exact absurd (List.isEmpty_iff.mp he) hp
    · cases h
  | cons d ds ih =>
    rw [splitAt?] at h
    split at h
    · rename_i hpre
      simp only [Option.some.injEq, Prod.mk.injEq] at h
      obtain ⟨rfl, rfl⟩ := h
      refine ⟨rfl, List.isPrefixOf_iff_prefix.mp hpre, fun hi => ?_⟩
      have := hi.length_le
      have := List.length_pos_iff.mpr hp
      simp at *
      omega
    · rename_i hpre
      simp only [Option.map_eq_some_iff] at h
      obtain ⟨⟨a', r'⟩, h1, h2⟩ := h
      simp only [Prod.mk.injEq] at h2
      obtain ⟨rfl, rfl⟩ := h2
      obtain ⟨e, h3, h4⟩ := ih h1
      refine ⟨by rw [e]; rfl, h3, fun hi => ?_⟩
      rw [List.cons_append, List.infix_cons_iff] at hi
      rcases hi with hi | hi
      · refine hpre (List.isPrefixOf_iff_prefix.mpr ?_)
        obtain ⟨t, rfl⟩ := h3
        have : pat.dropLast <+: pat ++ t := (List.dropLast_prefix pat).trans (List.prefix_append _ _)
        obtain ⟨u, hu⟩ := this
        rw [e, ← hu, ← List.append_assoc, ← List.cons_append]
        exact hi.trans (List.prefix_append _ _)
      · exact h4 hi

theorem takeWhile1_inv {ok : Char → Bool} {s a r : Str} (h : takeWhile1 ok s = .ok a r) :
    s = a ++ r ∧ a ≠ [] ∧ (∀ c ∈ a, ok c = true) ∧ ∀ c, r.head? = some c → ok c = false := by
  simp only [takeWhile1] at h
  split at h
  · cases h
  · rename_i hne
    cases h
    refine ⟨List.takeWhile_append_dropWhile.symm, by simpa using hne, ?_, ?_⟩
    · exact fun c hc => List.all_eq_true.mp List.all_takeWhile c hc
    · intro c hc
      have := List.head?_dropWhile_not ok s
      rw [hc] at this
      simpa using this

theorem alt_inv {ps : List (Parser α)} {s r : Str} {a : α} (h : alt ps s = .ok a r) : ∃ p ∈ ps, p s = .ok a r := by
  induction ps with
  | nil => cases h
  | cons p ps ih =>
    simp only [alt] at h
    split at h
    · rename_i a' r' hp; cases h; exact ⟨p, by simp, hp⟩
    · cases h
    · obtain ⟨q, hq, h⟩ := ih h; exact ⟨q, by simp [hq], h⟩

end QP.Pbrs.Nom

namespace QP.Pbrs.Grammar
open Nom Parse

theorem line_inv {s l r : Str} (h : notLineEnding s = .ok l r) : s = l ++ r ∧ (∀ c ∈ l, c ≠ '\n' ∧ c ≠ '\r') ∧
    (r = [] ∨ (∃ t, r = '\n' :: t) ∨ (∃ t, r = '\r' :: '\n' :: t)) := by
  have hsplit : s = s.takeWhile (fun c => c != '\r' && c != '\n') ++ s.dropWhile (fun c => c != '\r' && c != '\n') :=
    List.takeWhile_append_dropWhile.symm
  have hall : ∀ c ∈ s.takeWhile (fun c => c != '\r' && c != '\n'), c ≠ '\n' ∧ c ≠ '\r' := by
    intro c hc
    have := List.all_eq_true.mp List.all_takeWhile c hc
    simp only [Bool.and_eq_true, bne_iff_ne, ne_eq] at this
    exact ⟨this.2, this.1⟩
  simp only [notLineEnding] at h
  split at h
  · rename_i t ht
    cases h
    rw [ht] at hsplit
    exact ⟨hsplit, hall, Or.inr (Or.inr ⟨t, rfl⟩)⟩
  · cases h
  · rename_i h1 h2
    cases h
    refine ⟨hsplit, hall, ?_⟩
    cases hd : s.dropWhile (fun c => c != '\r' && c != '\n') with
    | nil => exact Or.inl rfl
    | cons c cs =>
      have := List.head?_dropWhile_not (fun c => c != '\r' && c != '\n') s
      rw [hd] at this
      simp only [List.head?_cons, Bool.not_eq_eq_eq_not, Bool.not_true, Bool.and_eq_false_iff, bne_eq_false_iff_eq] at this
      rcases this with rfl | rfl
      · exact absurd hd (h2 _)
      · exact Or.inr (Or.inl ⟨cs, rfl⟩)

/-- What one piece has read. -/
theorem piece_inv {s r : Str} {u : Unit} (h : piece s = .ok u r) :
    (∃ b, s = b ++ r ∧ b ≠ [] ∧ Blanks b) ∨
    (∃ l, s = c! "//" ++ l ++ r ∧ (∀ c ∈ l, c ≠ '\n' ∧ c ≠ '\r') ∧ (r = [] ∨ (∃ t, r = '\n' :: t) ∨ (∃ t, r = '\r' :: '\n' :: t))) ∨
    (∃ b, s = c! "/*" ++ b ++ c! "*/" ++ r ∧ ¬ c! "*/" <:+: b ++ c! "*") := by
  obtain ⟨p, hp, h⟩ := alt_inv h
  simp only [List.mem_cons, List.not_mem_nil, or_false] at hp
  rcases hp with rfl | rfl | rfl
  · obtain ⟨a, h, _⟩ := value_inv h
    obtain ⟨e, hne, h1, _⟩ := takeWhile1_inv h
    exact Or.inl ⟨a, e, hne, fun c hc => isSpace_iff.mp (h1 c hc)⟩
  · obtain ⟨a, h, _⟩ := value_inv h
    obtain ⟨t, h1, h2⟩ := pair_inv h
    obtain ⟨e, h3, h4⟩ := line_inv h2
    exact Or.inr (Or.inl ⟨a.2, by rw [tok_inv h1, e, List.append_assoc], h3, h4⟩)
  · obtain ⟨a, h, _⟩ := value_inv h
    obtain ⟨t, h1, h2⟩ := pair_inv h
    obtain ⟨t2, h3, h4⟩ := pair_inv h2
    simp only [takeUntil] at h3
    split at h3
    · rename_i x y hxy
      cases h3
      obtain ⟨e, _, h5⟩ := splitAt_inv (by simp) hxy
      exact Or.inr (Or.inr ⟨_, by rw [tok_inv h1, e, tok_inv h4]; simp only [List.append_assoc], h5⟩)
    · cases h3

theorem many0_inv {α : Type} {p : Parser α} {s r : Str} {l : List α} (h : many0 p s = .ok l r) :
    (l = [] ∧ r = s ∧ p s = .err) ∨ ∃ a t as, l = a :: as ∧ p s = .ok a t ∧ t.length < s.length ∧ many0 p t = .ok as r := by
  rw [many0_eq] at h
  split at h
  · rename_i hp; cases h; exact Or.inl ⟨rfl, rfl, hp⟩
  · cases h
  · rename_i a t hp
    split at h
    · rename_i hl
      split at h
      · rename_i as r' hm
        cases h
        exact Or.inr ⟨a, t, as, rfl, hp, hl, hm⟩
      · cases h
      · cases h
    · cases h

theorem many1_inv {α : Type} {p : Parser α} {s r : Str} {l : List α} (h : many1 p s = .ok l r) :
    ∃ a t as, l = a :: as ∧ p s = .ok a t ∧ many0 p t = .ok as r := by
  simp only [many1] at h
  split at h
  · rename_i a t hp
    split at h
    · rename_i as r' hm
      cases h
      exact ⟨a, t, as, rfl, hp, hm⟩
    · cases h
    · cases h
  · cases h
  · cases h

theorem pieces_stop {s r : Str} {l : List Unit} (h : many0 piece s = .ok l r) : piece r = .err := by
  induction l generalizing s with
  | nil =>
    rcases many0_inv h with ⟨_, rfl, h⟩ | ⟨_, _, _, e, _⟩
    · exact h
    · cases e
  | cons a l ih =>
    rcases many0_inv h with ⟨e, _⟩ | ⟨_, t, _, e, _, _, h⟩
    · cases e
    · cases e; exact ih h

theorem piece_blank {c : Char} {s : Str} (h : Blank c) : piece (c :: s) ≠ .err := by
  intro he
  have : takeWhile1 isSpace (c :: s) = .ok ((c :: s).takeWhile isSpace) ((c :: s).dropWhile isSpace) := by
    simp only [takeWhile1, List.takeWhile_cons, isSpace_iff.mpr h, if_true]
    rfl
  rw [piece, alt_ok (value_ok this)] at he
  cases he

theorem blank_inv {c : Char} {s : Str} (hc : Blank c) (h : Gap (c :: s)) : Gap s := by
  generalize he : c :: s = x at h
  cases h with
  | nil => cases he
  | blank _ h => cases he; exact h
  | line _ _ _ => cases he; exact absurd hc (by decide)
  | block _ _ => cases he; exact absurd hc (by decide)

/-- What a gap has read, if something is left. -/
theorem pieces_inv {s r : Str} {l : List Unit} (h : many0 piece s = .ok l r) (hr : r ≠ []) : ∃ g, s = g ++ r ∧ Gap g := by
  have hstop := pieces_stop h
  induction l generalizing s with
  | nil =>
    rcases many0_inv h with ⟨_, rfl, h⟩ | ⟨_, _, _, e, _⟩
    · exact ⟨[], rfl, .nil⟩
    · cases e
  | cons a l ih =>
    rcases many0_inv h with ⟨e, _⟩ | ⟨_, t, _, e, hp, hl, h⟩
    · cases e
    · cases e
      obtain ⟨g, rfl, hg⟩ := ih h
      rcases piece_inv hp with ⟨b, e, _, hb⟩ | ⟨c, e, hc, hend⟩ | ⟨b, e, hb⟩
      · exact ⟨b ++ g, by rw [e, List.append_assoc], hb.gap.append hg⟩
      · have nb : ∀ {d : Char} {x : Str}, Blank d → g ++ r = d :: x → ∃ g', g = d :: g' ∧ Gap g' := by
          intro d x hd he
          cases g with
          | nil =>
            rw [List.nil_append] at he
            rw [he] at hstop
            exact absurd hstop (piece_blank hd)
          | cons d' g' =>
            simp only [List.cons_append, List.cons.injEq] at he
            obtain ⟨rfl, _⟩ := he
            exact ⟨g', rfl, blank_inv hd hg⟩
        rcases hend with he | ⟨x, he⟩ | ⟨x, he⟩
        · exact absurd (List.append_eq_nil_iff.mp he).2 hr
        · obtain ⟨g', rfl, hg'⟩ := nb (by decide) he
          exact ⟨_, by rw [e]; simp, .line (s := g') (e := c! "\n") hc (Or.inl rfl) hg'⟩
        · obtain ⟨g', rfl, hg'⟩ := nb (by decide) he
          have he2 : g' ++ r = '\n' :: x := by simpa using he
          obtain ⟨g'', rfl, hg''⟩ : ∃ g'', g' = '\n' :: g'' ∧ Gap g'' := by
            cases g' with
            | nil =>
              rw [List.nil_append] at he2
              rw [he2] at hstop
              exact absurd hstop (piece_blank (by decide))
            | cons d' g'' =>
              simp only [List.cons_append, List.cons.injEq] at he2
              obtain ⟨rfl, _⟩ := he2
              exact ⟨g'', rfl, blank_inv (by decide) hg'⟩
          exact ⟨_, by rw [e]; simp, .line (s := g'') (e := c! "\r\n") hc (Or.inr rfl) hg''⟩
      · exact ⟨c! "/*" ++ b ++ c! "*/" ++ g, by rw [e]; simp only [List.append_assoc], .block hb hg⟩

theorem brs_inv {s r : Str} {l : List Unit} (h : many0 br s = .ok l r) (hr : r ≠ []) : ∃ g, s = g ++ r ∧ Gap g := by
  induction l generalizing s with
  | nil =>
    rcases many0_inv h with ⟨_, rfl, _⟩ | ⟨_, _, _, e, _⟩
    · exact ⟨[], rfl, .nil⟩
    · cases e
  | cons a l ih =>
    rcases many0_inv h with ⟨e, _⟩ | ⟨_, t, _, e, hp, hl, h⟩
    · cases e
    · cases e
      obtain ⟨g, rfl, hg⟩ := ih h
      obtain ⟨l', hp, _⟩ := value_inv hp
      obtain ⟨a', t', as', _, h1, h2⟩ := many1_inv hp
      have h3 : many0 piece s = .ok (a' :: as') (g ++ r) := by
        by_cases hlt : t'.length < s.length
        · exact many0_cons h1 hlt h2
        · rcases piece_inv h1 with ⟨b, e, hne, _⟩ | ⟨c, e, _⟩ | ⟨b, e, _⟩
          · have := List.length_pos_iff.mpr hne
            have := congrArg List.length e
            simp only [List.length_append] at this
            omega
          · rw [e] at hlt; simp at hlt; omega
          · rw [e] at hlt; simp at hlt; omega
      obtain ⟨g', e', hg'⟩ := pieces_inv h3 (by simp [hr])
      exact ⟨g' ++ g, by rw [e', List.append_assoc], hg'.append hg⟩

theorem gap0_inv {s r : Str} {u : Unit} (h : gap0 s = .ok u r) (hr : r ≠ []) : ∃ g, s = g ++ r ∧ Gap g := by
  obtain ⟨l, h, _⟩ := value_inv h
  exact brs_inv h hr

theorem gap1_inv {s r : Str} {u : Unit} (h : gap1 s = .ok u r) (hr : r ≠ []) : ∃ g, s = g ++ r ∧ Gap1 g := by
  obtain ⟨l, h, _⟩ := value_inv h
  obtain ⟨a, t, as, _, h1, h2⟩ := many1_inv h
  have h3 : gap0 t = .ok () r := value_ok h2
  obtain ⟨g, rfl, hg⟩ := gap0_inv h3 hr
  obtain ⟨l', hp, _⟩ := value_inv h1
  obtain ⟨a', t', as', _, h4, h5⟩ := many1_inv hp
  have hlt : t'.length < s.length := by
    rcases piece_inv h4 with ⟨b, e, hne, _⟩ | ⟨c, e, _⟩ | ⟨b, e, _⟩
    · have := List.length_pos_iff.mpr hne
      rw [e]; simp; omega
    · rw [e]; simp; omega
    · rw [e]; simp; omega
  have h6 : many0 piece s = .ok (a' :: as') (g ++ r) := many0_cons h4 hlt h5
  obtain ⟨g', e', hg'⟩ := pieces_inv h6 (by simp [hr])
  refine ⟨g' ++ g, by rw [e', List.append_assoc], hg'.append hg, fun he => ?_⟩
  obtain ⟨rfl, rfl⟩ := List.append_eq_nil_iff.mp he
  obtain ⟨g2, e2, _⟩ := pieces_inv h5 (by simp [hr])
  rw [e2, e'] at hlt
  simp at hlt
  omega

end QP.Pbrs.Grammar
