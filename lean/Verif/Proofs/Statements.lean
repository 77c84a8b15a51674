import Verif.Proofs.Grammar
/-!
# The parser reads the statements of the grammar
-/

set_option linter.unusedVariables false

namespace QP.Pbrs.Grammar
open Nom Parse

/-- A literal. -/
theorem Head.lit {P : Char → Prop} {c : Char} {k r : Str} (h : P c) : Head P ((c :: k) ++ r) := Head.cons h

/-! ## The optional semicolon -/

/-- After the blanks and comments there is no `;`. -/
def Clean (r : Str) : Prop := ∃ x, gap0 r = .ok () x ∧ x.head? ≠ some ';'

theorem clean_gap {g x : Str} (hg : Gap g) (hx : Head Stop x) (hs : x.head? ≠ some ';') : Clean (g ++ x) :=
  ⟨x, gap0_ok hg hx, hs⟩

theorem clean_end {g : Str} (hg : EndGap g) : Clean g := ⟨[], gap0_end hg, by simp⟩

theorem semi_ok {e r : Str} (he : SemiText e) (hr : Clean r) : optSemi (e ++ r) = .ok () r := by
  rcases he with rfl | ⟨g, hg, rfl⟩
  · obtain ⟨x, h1, h2⟩ := hr
    exact value_ok (opt_err (pair_err2 h1 (tok_head h2)))
  · rw [List.append_assoc]
    exact value_ok (opt_ok (pair_ok (gap0_ok hg (Head.cons (by decide))) (tok_ok _ _)))

/-! ## Options -/

theorem option_ok {t r : Str} (h : OptionText t) : optionIgnore (t ++ r) = .ok () r := by
  cases h with
  | @plain g1 name g2 g3 v h1 hn h2 h3 s2 s3 sv hv =>
    have e : c! "option" ++ g1 ++ name ++ g2 ++ c! "=" ++ g3 ++ v ++ c! ";" ++ r =
      c! "option" ++ (g1 ++ (name ++ g2 ++ c! "=" ++ g3 ++ v ++ ';' :: r)) := by
      simp only [List.append_assoc, List.cons_append, List.nil_append]
    rw [e]
    have hno : ';' ∉ name ++ g2 ++ c! "=" ++ g3 ++ v := by
      simp only [List.mem_append, not_or]
      refine ⟨⟨⟨⟨?_, s2⟩, by decide⟩, s3⟩, sv⟩
      intro hc
      exact absurd (hn.chars _ hc) (by decide)
    refine value_ok (delimited_ok (pair_ok (tok_ok _ _) (gap1_ok h1 ?_)) (takeUntil_char hno) (tok_ok (c! ";") r))
    simp only [List.append_assoc]
    exact hn.stop
  | @custom g1 v h1 hv =>
    have e : c! "option" ++ g1 ++ c! "(" ++ v ++ c! ";" ++ r = c! "option" ++ (g1 ++ ('(' :: v ++ ';' :: r)) := by
      simp only [List.append_assoc, List.cons_append, List.nil_append]
    rw [e]
    refine value_ok (delimited_ok (pair_ok (tok_ok _ _) (gap1_ok h1 (Head.cons (by decide)))) (takeUntil_char ?_)
      (tok_ok (c! ";") r))
    simp only [List.mem_cons, not_or]
    exact ⟨by decide, hv⟩

/-- What follows the keyword `option` is not the end of a field or of an enum value. -/
theorem option_split {t : Str} (h : OptionText t) (r : Str) : ∃ g x, t ++ r = c! "option" ++ (g ++ x) ∧ Gap1 g ∧ Head Stop x ∧
    Head (· ≠ '=') x ∧
    separatedPair word (delimited gap0 (tok (c! "=")) gap0) (alt [integer, hexInteger]) x = .err := by
  cases h with
  | @plain g1 name g2 g3 v h1 hn h2 h3 s2 s3 sv hv =>
    obtain ⟨c, hc, hb, hs, hd⟩ := hv
    have hne : v ≠ [] := by rintro rfl; cases hc
    have hvs : Head Stop (v ++ (c! ";" ++ r)) := Head.left hne fun d hd => by rw [hc] at hd; cases hd; exact ⟨hb, hs⟩
    have hvd : Head NoDigit (v ++ (c! ";" ++ r)) := Head.left hne fun d hd' => by rw [hc] at hd'; cases hd'; exact hd
    refine ⟨g1, name ++ (g2 ++ (c! "=" ++ (g3 ++ (v ++ (c! ";" ++ r))))), by simp only [List.append_assoc], h1, hn.stop,
      hn.headP ?_, ?_⟩
    · rintro d hd rfl
      exact absurd hd (by unfold Letter; decide)
    · refine separatedPair_err3 (word_ok hn (Gap.headP h2 (fun _ => noWord_gap) (Head.cons (by decide))))
        (delimited_ok (gap0_ok h2 (Head.cons (by decide))) (tok_ok _ _) (gap0_ok h3 hvs)) ?_
      rw [alt_err (integer_err hvd), alt_err (hexInteger_err ?_), alt_nil]
      rintro ⟨x, hx⟩
      have := hvd '0' (by rw [← hx]; rfl)
      revert this; decide
  | @custom g1 v h1 hv =>
    refine ⟨g1, c! "(" ++ (v ++ (c! ";" ++ r)), by simp only [List.append_assoc], h1, Head.cons (by decide),
      Head.cons (by decide), separatedPair_err (word_err (Head.cons (by unfold Letter; decide)))⟩

/-! ## Oneofs -/

theorem brace_field_err {ff : Syntax → FieldType → Option FreqToken → Frequency} {syn : Syntax} {x : Str} :
    fieldGeneric ff syn (c! "}" ++ x) = .err := by
  have h1 : opt (terminated frequency gap1) (c! "}" ++ x) = .ok none (c! "}" ++ x) := by
    refine opt_err (terminated_err ?_)
    rw [frequency, alt_err (value_err (tok_lit (by decide) (by decide))), alt_err (value_err (tok_lit (by decide) (by decide))),
      alt_err (value_err (tok_lit (by decide) (by decide))), alt_nil]
  refine mapRes_err (pair_err2 h1 (pair_err (terminated_err ?_)))
  rw [fieldType_eq, alt_skip fun p hp hpre => ?_]
  · exact (alt_err (map_err (delimited_err (pair_err (tok_lit (by decide) (by decide)))))).trans
      ((alt_err (map_err (name_err (Head.cons (by unfold Letter; decide))))).trans alt_nil)
  have key : ∀ p ∈ scalarTypes, p.2.head? ≠ some '}' ∧ p.2 ≠ [] := by decide
  obtain ⟨y, hy⟩ := hpre
  obtain ⟨h2, h3⟩ := key p hp
  cases hk : p.2 with
  | nil => exact h3 hk
  | cons c cs =>
    rw [hk] at hy h2
    simp only [List.cons_append, List.nil_append, List.cons.injEq] at hy
    exact h2 (by rw [← hy.1]; rfl)

theorem oneOf_ok {syn : Syntax} {o : OneOf} {t r : Str} (h : OneOfText syn o t) : oneOf syn (t ++ r) = .ok o r := by
  cases h with
  | @mk name g1 g2 b g3 fs h1 hn h2 hb hne h3 =>
    have e : c! "oneof" ++ g1 ++ name ++ g2 ++ c! "{" ++ b ++ g3 ++ c! "}" ++ r =
      c! "oneof" ++ (g1 ++ (name ++ (g2 ++ (c! "{" ++ (b ++ (g3 ++ (c! "}" ++ r))))))) := by
      simp only [List.append_assoc]
    rw [e]
    refine map_ok (pair_ok ((preceded_ok (pair_ok (tok_ok _ _) (gap1_ok h1 hn.stop))).trans
      (word_ok hn (Gap.headP h2 (fun _ => noWord_gap) (Head.cons (by decide)))))
      (delimited_ok (pair_ok (gap0_ok h2 (Head.cons (by decide))) (tok_ok _ _))
        (many_ok (fun a t r h => oneofField_ok h) (fun a t r h => unlabelled_stop h.2 r) (Head.cons (by decide)) brace_field_err
          h3 hb hne).1 (tok_ok _ _)))

/-! ## Enums -/

theorem blanks_ok {b r : Str} (hb : Blanks b) (hr : Head (fun c => ¬ Blank c) r) :
    ∃ l, many0 (takeWhile1 isSpace) (b ++ r) = .ok l r := by
  have hnil := many0_nil (spaces_err hr)
  by_cases hne : b = []
  · subst hne; exact ⟨_, hnil⟩
  · refine ⟨_, many0_cons (takeWhile1_ok hne (fun c hc => isSpace_iff.mpr (hb c hc)) fun c hc => ?_) ?_ hnil⟩
    · rw [← Bool.not_eq_true, isSpace_iff]; exact hr c hc
    · have := List.length_pos_iff.mpr hne
      simp only [List.length_append]; omega

theorem stop_noBlank {r : Str} (h : Head Stop r) : Head (fun c => ¬ Blank c) r := h.mono fun _ hc => hc.1

theorem enumDeprecated_ok {b1 b2 b3 w b4 r : Str} (h1 : Blanks b1) (h2 : Blanks b2) (h3 : Blanks b3) (hw : Word w)
    (h4 : Blanks b4) : enumDeprecated (c! "[" ++ (b1 ++ (c! "deprecated" ++ (b2 ++ (c! "=" ++ (b3 ++ (w ++ (b4 ++ (c! "]" ++ r))))))))) =
      .ok () r := by
  obtain ⟨l1, e1⟩ := blanks_ok (r := c! "deprecated" ++ (b2 ++ (c! "=" ++ (b3 ++ (w ++ (b4 ++ (c! "]" ++ r))))))) h1
    (Head.cons (by decide))
  obtain ⟨l2, e2⟩ := blanks_ok (r := c! "=" ++ (b3 ++ (w ++ (b4 ++ (c! "]" ++ r))))) h2 (Head.cons (by decide))
  obtain ⟨l3, e3⟩ := blanks_ok (r := w ++ (b4 ++ (c! "]" ++ r))) h3 (stop_noBlank hw.stop)
  obtain ⟨l4, e4⟩ := blanks_ok (r := c! "]" ++ r) h4 (Head.cons (by decide))
  have hwe : Head NoWord (b4 ++ (c! "]" ++ r)) := Gap.headP h4.gap (fun _ => noWord_gap) (Head.cons (by decide))
  exact value_ok (pair_ok (tok_ok _ _) (pair_ok e1 (pair_ok (tok_ok _ _) (pair_ok e2 (pair_ok (tok_ok _ _) (pair_ok e3
    (pair_ok (word_ok hw hwe) (pair_ok e4 (tok_ok _ _)))))))))

theorem enumTail_ok {t r : Str} (h : EnumTail t) :
    ∃ x, pair (many0 (alt [br, enumDeprecated])) (tok (c! ";")) (t ++ (c! ";" ++ r)) = .ok x r := by
  have hend : many0 (alt [br, enumDeprecated]) (c! ";" ++ r) = .ok [] (c! ";" ++ r) := by
    exact many0_nil ((alt_err (br_err (Head.lit (by decide)))).trans
      ((alt_err (value_err (pair_err (tok_lit (by decide) (by decide))))).trans alt_nil))
  have hgap : ∀ g x l r', Gap g → Head Stop x → many0 (alt [br, enumDeprecated]) x = .ok l r' →
      ∃ l', many0 (alt [br, enumDeprecated]) (g ++ x) = .ok l' r' := by
    intro g x l r' hg hx h
    by_cases hne : g = []
    · subst hne; exact ⟨l, h⟩
    · refine ⟨_, many0_cons (alt_ok (br_ok ⟨hg, hne⟩ hx)) ?_ h⟩
      have := List.length_pos_iff.mpr hne
      simp only [List.length_append]; omega
  cases h with
  | gap hg =>
    obtain ⟨l, h⟩ := hgap _ _ _ _ hg (Head.cons (by decide)) hend
    exact ⟨_, pair_ok h (tok_ok _ _)⟩
  | @deprecated g b1 b2 b3 w b4 g' hg h1 h2 h3 hw h4 hg' =>
    have e : g ++ c! "[" ++ b1 ++ c! "deprecated" ++ b2 ++ c! "=" ++ b3 ++ w ++ b4 ++ c! "]" ++ g' ++ (c! ";" ++ r) =
      g ++ (c! "[" ++ (b1 ++ (c! "deprecated" ++ (b2 ++ (c! "=" ++ (b3 ++ (w ++ (b4 ++ (c! "]" ++ (g' ++ (c! ";" ++ r))))))))))) := by
      simp only [List.append_assoc]
    rw [e]
    obtain ⟨l, hl⟩ := hgap _ _ _ _ hg' (Head.cons (by decide)) hend
    have hdep := enumDeprecated_ok (r := g' ++ (c! ";" ++ r)) h1 h2 h3 hw h4
    obtain ⟨l2, hl2⟩ := hgap g _ _ _ hg (Head.cons (by decide)) (many0_cons
      ((alt_err (br_err (Head.cons (by decide)))).trans (alt_ok hdep)) (by
        show _ < (c! "[" ++ _).length
        simp only [List.length_append, List.length_cons]; omega) hl)
    exact ⟨_, pair_ok hl2 (tok_ok _ _)⟩

theorem enumTail_head {t : Str} (h : EnumTail t) (r : Str) : Head NoWord (t ++ (c! ";" ++ r)) := by
  cases h with
  | gap hg => exact Gap.headP hg (fun _ => noWord_gap) (Head.cons (by decide))
  | deprecated hg h1 h2 h3 hw h4 hg' =>
    simp only [List.append_assoc]
    exact Gap.headP hg (fun _ => noWord_gap) (Head.cons (by decide))

theorem noWord_noDigit {c : Char} (h : NoWord c) : NoDigit c := by
  rw [NoDigit, ← Bool.not_eq_true]
  exact fun hd => h (digit_wordChar hd)

theorem enumNumber_ok {n : Nat} {s r : Str} (h : EnumNumber n s) (hn : n < 2 ^ 31) (hr : Head NoWord r) :
    alt [hexInteger, integer] (s ++ r) = .ok (n : Int) r := by
  rcases h with h | ⟨x, h, rfl⟩
  · rw [alt_err (hexInteger_err (h.noHex hr)), alt_ok (integer_ok h hn (hr.mono fun _ => noWord_noDigit))]
  · exact alt_ok (hexInteger_ok h hn hr)

theorem enumNumber_stop {n : Nat} {s : Str} (h : EnumNumber n s) (r : Str) : Head Stop (s ++ r) := by
  rcases h with h | ⟨x, h, rfl⟩
  · exact h.headP fun _ => digit_stop
  · exact Head.cons (by decide)

theorem enumField_ok {name g1 g2 num t r : Str} {n : Nat} (hname : Word name) (h1 : Gap g1) (h2 : Gap g2)
    (hnum : EnumNumber n num) (hn : n < 2 ^ 31) (ht : EnumTail t) :
    enumField (name ++ (g1 ++ (c! "=" ++ (g2 ++ (num ++ (t ++ (c! ";" ++ r))))))) = .ok (name, (n : Int)) r := by
  obtain ⟨x, hx⟩ := enumTail_ok (r := r) ht
  exact terminated_ok (separatedPair_ok (word_ok hname (Gap.headP h1 (fun _ => noWord_gap) (Head.cons (by decide))))
    (pair_ok (gap0_ok h1 (Head.cons (by decide))) (pair_ok (tok_ok _ _) (gap0_ok h2 (enumNumber_stop hnum _))))
    (enumNumber_ok hnum hn (enumTail_head ht r))) hx

theorem letter_cases {c : Char} (h : Blank c ∨ c = '/' ∨ c = '}') : ¬ Letter c := by
  rcases h with (rfl | rfl | rfl | rfl) | rfl | rfl <;> (unfold Letter; decide)

theorem enumEvent_gap {g x : Str} (hg : Gap1 g) (hx : Head Stop x) : enumEvent (g ++ x) = .ok none x := by
  have hw : word (g ++ x) = .err := word_err (Gap1.headP hg fun c hc => letter_cases (by
    rcases hc with h | h
    · exact Or.inl h
    · exact Or.inr (Or.inl h)))
  refine (alt_err (map_err (terminated_err (separatedPair_err hw)))).trans
    ((alt_err (value_err (value_err (delimited_err (pair_err (tok_head ?_)))))).trans (alt_ok (value_ok (br_ok hg hx))))
  intro hc
  have := Gap1.headP (P := fun c => c ≠ 'o') (r := x) hg (by rintro c ((rfl | rfl | rfl | rfl) | rfl) <;> decide)
  exact this _ hc rfl

theorem enumEvent_end {x : Str} : enumEvent (c! "}" ++ x) = .err := by
  exact (alt_err (map_err (terminated_err (separatedPair_err (word_err (Head.lit (letter_cases (by simp)))))))).trans
    ((alt_err (value_err (value_err (delimited_err (pair_err (tok_lit (by decide) (by decide))))))).trans
    ((alt_err (value_err (br_err (Head.lit (by decide))))).trans alt_nil))

theorem enumEvent_option {t r : Str} (h : OptionText t) : enumEvent (t ++ r) = .ok none r := by
  obtain ⟨g, x, e, hg, hx, heq, _⟩ := option_split h r
  have h1 : enumField (t ++ r) = .err := by
    rw [e]
    refine terminated_err (separatedPair_err2 (word_ok (w := c! "option") ⟨'o', c! "ption", rfl, by unfold Letter; decide, by decide⟩
      (Gap1.headP hg fun _ => noWord_gap)) (pair_err2 (gap0_ok hg.1 hx) (pair_err (tok_head ?_))))
    exact fun hc => heq _ hc rfl
  rw [enumEvent, alt_err (map_err h1), alt_ok (value_ok (option_ok h))]

/-- A gap and a statement, in a list. -/
theorem many_step {α : Type} {p : Parser α} {g t rest r : Str} {e i : α} {evs : List α} (hg : Gap g)
    (hi : ∀ x, Gap1 g → Head Stop x → p (g ++ x) = .ok i x) (hstop : Head Stop (t ++ rest)) (hne : t ≠ [])
    (he : p (t ++ rest) = .ok e rest) (h : many0 p rest = .ok evs r) :
    many0 p (g ++ (t ++ rest)) = .ok (e :: evs) r ∨ many0 p (g ++ (t ++ rest)) = .ok (i :: e :: evs) r := by
  have h1 : many0 p (t ++ rest) = .ok (e :: evs) r := many0_cons he (by
    have := List.length_pos_iff.mpr hne
    simp only [List.length_append]; omega) h
  by_cases hge : g = []
  · subst hge; exact Or.inl h1
  · refine Or.inr (many0_cons (hi _ ⟨hg, hge⟩ hstop) ?_ h1)
    have := List.length_pos_iff.mpr hge
    simp only [List.length_append]; omega

theorem many0_panic {α : Type} {p : Parser α} {s r : Str} {a : α} (h : p s = .ok a r) (hl : r.length < s.length)
    (h2 : many0 p r = .panic) : many0 p s = .panic := by
  rw [many0_eq]; simp only [h, hl, if_true, h2]

theorem many_panic {α : Type} {p : Parser α} {g t rest : Str} {e i : α} (hg : Gap g)
    (hi : ∀ x, Gap1 g → Head Stop x → p (g ++ x) = .ok i x) (hstop : Head Stop (t ++ rest)) (hne : t ≠ [])
    (he : p (t ++ rest) = .ok e rest) (h : many0 p rest = .panic) : many0 p (g ++ (t ++ rest)) = .panic := by
  have h1 : many0 p (t ++ rest) = .panic := many0_panic he (by
    have := List.length_pos_iff.mpr hne
    simp only [List.length_append]; omega) h
  by_cases hge : g = []
  · subst hge; exact h1
  · refine many0_panic (hi _ ⟨hg, hge⟩ hstop) ?_ h1
    have := List.length_pos_iff.mpr hge
    simp only [List.length_append]; omega

theorem option_stop {t : Str} (h : OptionText t) (r : Str) : Head Stop (t ++ r) ∧ t ≠ [] := by
  cases h <;> exact ⟨Head.cons (by decide), by simp⟩

theorem enumBody_ok {l : List (Str × Int)} {s : Str} (h : EnumBody l s) : ∀ {rest r : Str} {evs : List (Option (Str × Int))},
    many0 enumEvent rest = .ok evs r →
    ∃ evs', many0 enumEvent (s ++ rest) = .ok evs' r ∧ evs'.filterMap id = l ++ evs.filterMap id := by
  induction h with
  | nil => intro rest r evs h; exact ⟨evs, h, rfl⟩
  | @value l s g name g1 g2 num t n _ hg hname h1 h2 hnum hn ht ih =>
    intro rest r evs h
    have e : s ++ g ++ name ++ g1 ++ c! "=" ++ g2 ++ num ++ t ++ c! ";" ++ rest =
      s ++ (g ++ ((name ++ (g1 ++ (c! "=" ++ (g2 ++ (num ++ (t ++ c! ";")))))) ++ rest)) := by
      simp only [List.append_assoc]
    have e2 : (name ++ (g1 ++ (c! "=" ++ (g2 ++ (num ++ (t ++ c! ";")))))) ++ rest =
      name ++ (g1 ++ (c! "=" ++ (g2 ++ (num ++ (t ++ (c! ";" ++ rest)))))) := by
      simp only [List.append_assoc]
    have hev : enumEvent ((name ++ (g1 ++ (c! "=" ++ (g2 ++ (num ++ (t ++ c! ";")))))) ++ rest) = .ok (some (name, (n : Int))) rest := by
      rw [e2]; exact alt_ok (map_ok (enumField_ok hname h1 h2 hnum hn ht))
    rw [e]
    rcases many_step hg (fun x hg hx => enumEvent_gap hg hx) (by rw [e2]; exact hname.stop) (by simp [Word.ne hname]) hev h with h3 | h3
    · obtain ⟨evs', h4, h5⟩ := ih h3
      exact ⟨evs', h4, by rw [h5]; simp⟩
    · obtain ⟨evs', h4, h5⟩ := ih h3
      exact ⟨evs', h4, by rw [h5]; simp⟩
  | @option l s g t _ hg ht ih =>
    intro rest r evs h
    have e : s ++ g ++ t ++ rest = s ++ (g ++ (t ++ rest)) := by simp only [List.append_assoc]
    rw [e]
    rcases many_step hg (fun x hg hx => enumEvent_gap hg hx) (option_stop ht rest).1 (option_stop ht rest).2 (enumEvent_option ht) h
      with h3 | h3
    · obtain ⟨evs', h4, h5⟩ := ih h3
      exact ⟨evs', h4, by rw [h5]; simp⟩
    · obtain ⟨evs', h4, h5⟩ := ih h3
      exact ⟨evs', h4, by rw [h5]; simp⟩

/-- A gap at the end of a list. -/
theorem many_end {α : Type} {p : Parser α} {g x : Str} {i : α} (hg : Gap g)
    (hi : Gap1 g → p (g ++ x) = .ok i x) (he : p x = .err) :
    many0 p (g ++ x) = .ok [] x ∨ many0 p (g ++ x) = .ok [i] x := by
  by_cases hge : g = []
  · subst hge; exact Or.inl (many0_nil he)
  · refine Or.inr (many0_cons (hi ⟨hg, hge⟩) ?_ (many0_nil he))
    have := List.length_pos_iff.mpr hge
    simp only [List.length_append]; omega

theorem enum_ok {en : Enumerator} {t r : Str} (h : EnumText en t) (hr : Clean r) : enumerator (t ++ r) = .ok en r := by
  cases h with
  | @mk name g1 g2 b g3 e l h1 hn h2 hb h3 he =>
    have eq : c! "enum" ++ g1 ++ name ++ g2 ++ c! "{" ++ b ++ g3 ++ c! "}" ++ e ++ r =
      c! "enum" ++ (g1 ++ (name ++ (g2 ++ (c! "{" ++ (b ++ (g3 ++ (c! "}" ++ (e ++ r)))))))) := by
      simp only [List.append_assoc]
    rw [eq]
    have hbody : ∃ evs, many0 enumEvent (b ++ (g3 ++ (c! "}" ++ (e ++ r)))) = .ok evs (c! "}" ++ (e ++ r)) ∧
        evs.filterMap id = l := by
      rcases many_end (p := enumEvent) (x := c! "}" ++ (e ++ r)) h3 (fun hg => enumEvent_gap hg (Head.cons (by decide))) enumEvent_end
        with h | h
      · obtain ⟨evs, h4, h5⟩ := enumBody_ok hb h
        exact ⟨evs, h4, by rw [h5]; simp⟩
      · obtain ⟨evs, h4, h5⟩ := enumBody_ok hb h
        exact ⟨evs, h4, by rw [h5]; simp⟩
    obtain ⟨evs, h4, h5⟩ := hbody
    refine (map_ok (terminated_ok (pair_ok (delimited_ok (pair_ok (tok_ok _ _) (gap1_ok h1 hn.stop))
      (word_ok hn (Gap.headP h2 (fun _ => noWord_gap) (Head.cons (by decide)))) (gap0_ok h2 (Head.cons (by decide))))
      (delimited_ok (tok_ok _ _) h4 (tok_ok _ _))) (semi_ok he hr))).trans ?_
    simp only [h5]

/-! ## Reserved numbers and names, extensions -/

theorem sorted_ext : ∀ {l l' : List Int}, l.Pairwise (· < ·) → l'.Pairwise (· < ·) → (∀ i, i ∈ l ↔ i ∈ l') → l = l'
  | [], [], _, _, _ => rfl
  | [], b :: l', _, _, h => absurd ((h b).mpr (by simp)) (by simp)
  | a :: l, [], _, _, h => absurd ((h a).mp (by simp)) (by simp)
  | a :: l, b :: l', h1, h2, h => by
    rw [List.pairwise_cons] at h1 h2
    have hab : a = b := by
      have ha := (h a).mp (by simp)
      have hb := (h b).mpr (by simp)
      rcases List.mem_cons.mp ha with e | ha
      · exact e
      · rcases List.mem_cons.mp hb with e | hb
        · exact e.symm
        · have := h1.1 b hb
          have := h2.1 a ha
          omega
    subst hab
    rw [sorted_ext h1.2 h2.2]
    intro i
    constructor
    · intro hi
      rcases List.mem_cons.mp ((h i).mp (by simp [hi])) with e | hi'
      · have := h1.1 i hi; omega
      · exact hi'
    · intro hi
      rcases List.mem_cons.mp ((h i).mpr (by simp [hi])) with e | hi'
      · have := h2.1 i hi; omega
      · exact hi'

theorem intRange_mem {a b i : Int} : i ∈ intRange a b ↔ a ≤ i ∧ i ≤ b := by
  simp only [intRange, List.mem_map, List.mem_range]
  constructor
  · rintro ⟨k, hk, rfl⟩; omega
  · rintro ⟨h1, h2⟩
    exact ⟨(i - a).toNat, by omega, by omega⟩

theorem intRange_sorted {a b : Int} : (intRange a b).Pairwise (· < ·) := by
  rw [intRange, List.pairwise_map]
  refine List.Pairwise.imp ?_ List.pairwise_lt_range
  intro i j hij
  omega

/-- A gap, then `,` or `;`. -/
def Sep (r : Str) : Prop := ∃ g c x, r = g ++ ([c] ++ x) ∧ Gap g ∧ (c = ',' ∨ c = ';')

theorem Sep.noDigit {r : Str} (h : Sep r) : Head NoDigit r := by
  obtain ⟨g, c, x, rfl, hg, h⟩ := h
  exact Gap.headP hg (fun _ => noDigit_gap) (Head.cons (by rcases h with rfl | rfl <;> decide))

theorem range_ok {l : List Int} {s r : Str} (h : RangeText l s) (hr : Sep r) :
    alt [numRange, map integer fun i => [i]] (s ++ r) = .ok l r := by
  cases h with
  | @one n s hs hn =>
    refine (alt_err ?_).trans (alt_ok (map_ok (integer_ok hs hn hr.noDigit)))
    refine map_err (separatedPair_err2 (integer_ok hs hn hr.noDigit) ?_)
    obtain ⟨g, c, x, rfl, hg, h⟩ := hr
    have hstop : Head Stop ([c] ++ x) := Head.lit (by rcases h with rfl | rfl <;> decide)
    by_cases hne : g = []
    · subst hne; exact pair_err (gap1_err hstop)
    · refine pair_err2 (gap1_ok ⟨hg, hne⟩ hstop) (pair_err (tok_head ?_))
      rcases h with rfl | rfl <;> (intro h; cases h)
  | @range a b l s t g1 g2 hs ht ha hb h1 h2 hl hm =>
    have e : s ++ g1 ++ c! "to" ++ g2 ++ t ++ r = s ++ (g1 ++ (c! "to" ++ (g2 ++ (t ++ r)))) := by
      simp only [List.append_assoc]
    rw [e]
    refine alt_ok ((map_ok (separatedPair_ok (integer_ok hs ha (Gap1.headP h1 fun _ => noDigit_gap))
      (pair_ok (gap1_ok h1 (Head.cons (by decide))) (pair_ok (tok_ok _ _) (gap1_ok h2 (ht.headP fun _ => digit_stop))))
      (integer_ok ht hb hr.noDigit))).trans ?_)
    rw [sorted_ext hl intRange_sorted fun i => (hm i).trans intRange_mem.symm]

theorem range_stop {l : List Int} {s : Str} (h : RangeText l s) (r : Str) : Head Stop (s ++ r) := by
  cases h with
  | one hs hn => exact hs.headP fun _ => digit_stop
  | range hs ht ha hb h1 h2 hl hm =>
    simp only [List.append_assoc]
    exact hs.headP fun _ => digit_stop

theorem ranges_stop {l : List Int} {s : Str} (h : RangesText l s) (r : Str) : Head Stop (s ++ r) := by
  cases h with
  | one h => exact range_stop h r
  | more h _ _ _ =>
    simp only [List.append_assoc]
    exact range_stop h _

/-- After the last element of a list. -/
theorem list_end {α : Type} {p : Parser α} {g x : Str} (hg : Gap g) (n : Nat) :
    separatedN comma p (n + 1) (g ++ (c! ";" ++ x)) = .ok [] (g ++ (c! ";" ++ x)) :=
  separatedN_nil (value_err (pair_err2 (gap0_ok hg (Head.lit (by decide))) (pair_err (tok_lit (by decide) (by decide)))))

theorem comma_ok {g1 g2 x : Str} (h1 : Gap g1) (h2 : Gap g2) (hx : Head Stop x) :
    comma (g1 ++ (c! "," ++ (g2 ++ x))) = .ok () x :=
  value_ok (pair_ok (gap0_ok h1 (Head.cons (by decide))) (pair_ok (tok_ok _ _) (gap0_ok h2 hx)))

theorem ranges_ok {l : List Int} {s g x : Str} (h : RangesText l s) (hg : Gap g) :
    ∃ (a : List Int) (as : List (List Int)) (u : Str),
      alt [numRange, map integer fun i => [i]] (s ++ (g ++ (c! ";" ++ x))) = .ok a u ∧
      (∀ n, u.length < n → separatedN comma (alt [numRange, map integer fun i => [i]]) n u = .ok as (g ++ (c! ";" ++ x))) ∧
      a ++ as.flatten = l := by
  induction h with
  | @one l s h =>
    refine ⟨l, [], g ++ (c! ";" ++ x), range_ok h ⟨g, ';', x, rfl, hg, by simp⟩, ?_, by simp⟩
    intro n hn
    cases n with
    | zero => omega
    | succ n => exact list_end hg n
  | @more l l' s t g1 g2 h h1 h2 ht ih =>
    obtain ⟨a, as, u, e1, e2, e3⟩ := ih
    have e : s ++ g1 ++ c! "," ++ g2 ++ t ++ (g ++ (c! ";" ++ x)) = s ++ (g1 ++ (c! "," ++ (g2 ++ (t ++ (g ++ (c! ";" ++ x)))))) := by
      simp only [List.append_assoc]
    rw [e]
    refine ⟨l, a :: as, _, range_ok h ⟨g1, ',', _, rfl, h1, by simp⟩, ?_, by simp [e3]⟩
    intro n hn
    have hu : u.length ≤ (t ++ (g ++ (c! ";" ++ x))).length := by
      have : Post True (t ++ (g ++ (c! ";" ++ x))) Any (alt [numRange, map integer fun i => [i]] (t ++ (g ++ (c! ";" ++ x)))) :=
        Post.alt fun p hp => by
          rcases List.mem_cons.mp hp with rfl | hp
          · exact numRange_post
          · rw [List.mem_singleton] at hp
            subst hp
            exact Post.map integer_post fun _ _ => trivial
      exact (Post.sub this e1).length_le
    cases n with
    | zero => omega
    | succ n =>
      refine separatedN_cons (comma_ok h1 h2 (ranges_stop ht _)) ?_ e1 (e2 n ?_)
      · simp only [List.length_append, List.length_cons]; omega
      · simp only [List.length_append, List.length_cons] at hn hu ⊢; omega

theorem reservedNums_ok {l : List Int} {g1 s g2 r : Str} (h1 : Gap1 g1) (h : RangesText l s) (h2 : Gap g2) :
    reservedNums (c! "reserved" ++ (g1 ++ (s ++ (g2 ++ (c! ";" ++ r))))) = .ok l r := by
  obtain ⟨a, as, u, e1, e2, e3⟩ := ranges_ok (x := r) h h2
  refine (map_ok (delimited_ok (pair_ok (tok_ok _ _) (gap1_ok h1 (ranges_stop h _)))
    (separatedList1_ok e1 (e2 _ (Nat.lt_succ_self _))) (pair_ok (gap0_ok h2 (Head.cons (by decide))) (tok_ok _ _)))).trans ?_
  rw [← e3]
  rfl

theorem quote_ok {n x : Str} (h : '"' ∉ n) : string (c! "\"" ++ (n ++ (c! "\"" ++ x))) = .ok n x :=
  delimited_ok (tok_ok _ _) (takeUntil_char h) (tok_ok _ _)

theorem names_ok {l : List Str} {s g x : Str} (h : NamesText l s) (hg : Gap g) :
    ∃ (a : Str) (as : List Str) (u : Str), string (s ++ (g ++ (c! ";" ++ x))) = .ok a u ∧
      (∀ n, u.length < n → separatedN comma string n u = .ok as (g ++ (c! ";" ++ x))) ∧ a :: as = l ∧
      Head (· = '"') (s ++ (g ++ (c! ";" ++ x))) := by
  induction h with
  | @one n h =>
    refine ⟨n, [], g ++ (c! ";" ++ x), ?_, ?_, rfl, Head.cons rfl⟩
    · simp only [List.append_assoc]; exact quote_ok h
    · intro n hn
      cases n with
      | zero => omega
      | succ n => exact list_end hg n
  | @more m l t g1 g2 h h1 h2 ht ih =>
    obtain ⟨a, as, u, e1, e2, e3, e4⟩ := ih
    have e : c! "\"" ++ m ++ c! "\"" ++ g1 ++ c! "," ++ g2 ++ t ++ (g ++ (c! ";" ++ x)) =
        c! "\"" ++ (m ++ (c! "\"" ++ (g1 ++ (c! "," ++ (g2 ++ (t ++ (g ++ (c! ";" ++ x)))))))) := by
      simp only [List.append_assoc]
    rw [e]
    refine ⟨m, a :: as, _, quote_ok h, ?_, by rw [e3], Head.cons rfl⟩
    intro n hn
    have hu : u.length ≤ (t ++ (g ++ (c! ";" ++ x))).length := (Post.sub string_post e1).length_le
    cases n with
    | zero => omega
    | succ n =>
      refine separatedN_cons (comma_ok h1 h2 (e4.mono ?_)) ?_ e1 (e2 n ?_)
      · rintro c rfl; decide
      · simp only [List.length_append, List.length_cons]; omega
      · simp only [List.length_append, List.length_cons] at hn hu ⊢; omega

theorem reservedNames_ok {l : List Str} {g1 s g2 r : Str} (h1 : Gap1 g1) (h : NamesText l s) (h2 : Gap g2) :
    reservedNames (c! "reserved" ++ (g1 ++ (s ++ (g2 ++ (c! ";" ++ r))))) = .ok l r ∧
    reservedNums (c! "reserved" ++ (g1 ++ (s ++ (g2 ++ (c! ";" ++ r))))) = .err := by
  obtain ⟨a, as, u, e1, e2, e3, e4⟩ := names_ok (x := r) h h2
  have hs : Head Stop (s ++ (g2 ++ (c! ";" ++ r))) := e4.mono (by rintro c rfl; decide)
  have hd : Head NoDigit (s ++ (g2 ++ (c! ";" ++ r))) := e4.mono (by rintro c rfl; decide)
  subst e3
  refine ⟨delimited_ok (pair_ok (tok_ok _ _) (gap1_ok h1 hs)) (separatedList1_ok e1 (e2 _ (Nat.lt_succ_self _)))
    (pair_ok (gap0_ok h2 (Head.cons (by decide))) (tok_ok _ _)), ?_⟩
  refine map_err (delimited_err2 (pair_ok (tok_ok _ _) (gap1_ok h1 hs)) (separatedList1_err ?_))
  exact (alt_err (map_err (separatedPair_err (integer_err hd)))).trans ((alt_err (map_err (integer_err hd))).trans alt_nil)

theorem extensions_ok {t r : Str} (h : ExtensionsText t) : extensions (t ++ r) = .ok () r := by
  cases h with
  | @mk n g1 g2 g3 s e b h1 hs hn h2 h3 he hb =>
    have eq : c! "extensions" ++ g1 ++ s ++ g2 ++ c! "to" ++ g3 ++ e ++ b ++ c! ";" ++ r =
      c! "extensions" ++ (g1 ++ (s ++ (g2 ++ (c! "to" ++ (g3 ++ (e ++ b ++ ';' :: r)))))) := by
      simp only [List.append_assoc, List.cons_append, List.nil_append]
    rw [eq]
    have hfacts : ';' ∉ e ++ b ∧ Head Stop (e ++ b ++ ';' :: r) ∧ trim (e ++ b) = e ∧
        (e = c! "max" ∨ ∃ m : Nat, parseI32 e = some (m : Int)) := by
      have hbs : ';' ∉ b := fun hc => absurd (hb _ hc) (by decide)
      rcases he with rfl | ⟨m, he, hm⟩
      · refine ⟨?_, Head.cons (by decide), trim_ok ⟨'m', rfl, by unfold Visible; decide⟩ ⟨'x', rfl, by unfold Visible; decide⟩ hb, Or.inl rfl⟩
        simp only [List.mem_append, not_or]
        exact ⟨by decide, hbs⟩
      · obtain ⟨f1, f2, f3⟩ := he.facts
        refine ⟨?_, ?_, trim_ok ?_ ?_ hb, Or.inr ⟨m, parseI32_ok he hm⟩⟩
        · simp only [List.mem_append, not_or]
          exact ⟨fun hc => absurd (f2 _ hc) (by decide), hbs⟩
        · rw [List.append_assoc]
          exact he.headP fun _ => digit_stop
        · cases e with
          | nil => exact absurd rfl f1
          | cons c cs => exact ⟨c, rfl, digit_visible (f2 c (by simp))⟩
        · refine ⟨e.getLast f1, List.getLast?_eq_some_getLast f1, digit_visible (f2 _ (List.getLast_mem f1))⟩
    obtain ⟨f1, f2, f3, f4⟩ := hfacts
    refine mapRes_ok (t := []) (delimited_ok (pair_ok (tok_ok _ _) (gap1_ok h1 (hs.headP fun _ => digit_stop)))
      (pair_ok (integer_ok hs hn (Gap1.headP h2 fun _ => noDigit_gap))
        ((preceded_ok (pair_ok (gap0_ok h2.1 (Head.cons (by decide))) (pair_ok (tok_ok _ _) (gap1_ok h3 f2)))).trans
          (takeUntil_char f1))) (tok_ok (c! ";") r)) ?_
    simp only [f3]
    rcases f4 with f4 | ⟨m, f4⟩
    · rw [if_pos f4]
    · split
      · rfl
      · rw [f4]

end QP.Pbrs.Grammar
