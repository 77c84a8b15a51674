import Verif.Proofs.Nom
import Verif.Spec.Grammar
/-!
# The parsers of gaps, words, names and numbers
-/

set_option linter.unusedVariables false

namespace QP.Pbrs.Grammar
open Nom Parse

/-! ## Characters -/

/-- The first character, if there is one, satisfies `P`. -/
def Head (P : Char → Prop) (s : Str) : Prop := ∀ c, s.head? = some c → P c

theorem Head.nil {P : Char → Prop} : Head P [] := by intro c h; cases h

theorem Head.cons {P : Char → Prop} {c : Char} {s : Str} (h : P c) : Head P (c :: s) := by
  intro d hd; cases hd; exact h

theorem Head.mono {P Q : Char → Prop} {s : Str} (h : Head P s) (hPQ : ∀ c, P c → Q c) : Head Q s :=
  fun c hc => hPQ c (h c hc)

theorem Head.append {P : Char → Prop} {s t : Str} (hs : ∀ c ∈ s, P c) (ht : Head P t) : Head P (s ++ t) := by
  cases s with
  | nil => exact ht
  | cons c cs => exact Head.cons (hs c (by simp))

/-- A non-empty text: only its first character counts. -/
theorem Head.left {P : Char → Prop} {s t : Str} (hne : s ≠ []) (hs : Head P s) : Head P (s ++ t) := by
  cases s with
  | nil => exact absurd rfl hne
  | cons c cs => exact Head.cons (hs c rfl)

instance : DecidablePred Blank := fun c => by unfold Blank; infer_instance
instance : DecidablePred Letter := fun c => by unfold Letter; infer_instance
instance : DecidablePred WordChar := fun c => by unfold WordChar; infer_instance

theorem isSpace_iff {c : Char} : isSpace c = true ↔ Blank c := by
  simp [isSpace, Blank, or_assoc]

theorem isAlpha_eq (c : Char) : isAlpha c = c.isAlpha := by
  rw [Bool.eq_iff_iff]
  simp only [isAlpha, Char.isAlpha, Char.isUpper, Char.isLower, Bool.or_eq_true, Bool.and_eq_true, decide_eq_true_eq, ge_iff_le]
  exact Or.comm

theorem isDigit_eq (c : Char) : isDigit c = c.isDigit := by
  rw [Bool.eq_iff_iff]
  simp only [isDigit, Char.isDigit, Bool.and_eq_true, decide_eq_true_eq, ge_iff_le]
  exact Iff.rfl

theorem alnum_eq (c : Char) : (isAlpha c || isDigit c) = c.isAlphanum := by
  rw [isAlpha_eq, isDigit_eq]; rfl

/-- A character at which a gap ends. -/
def Stop (c : Char) : Prop := ¬ Blank c ∧ c ≠ '/'
/-- A character at which a word ends. -/
def NoWord (c : Char) : Prop := ¬ WordChar c
/-- A character at which a name ends. -/
def NoName (c : Char) : Prop := ¬ WordChar c ∧ c ≠ '.'
/-- A character at which a number ends. -/
def NoDigit (c : Char) : Prop := c.isDigit = false

instance : DecidablePred Stop := fun c => by unfold Stop; infer_instance
instance : DecidablePred NoWord := fun c => by unfold NoWord; infer_instance
instance : DecidablePred NoName := fun c => by unfold NoName; infer_instance
instance : DecidablePred NoDigit := fun c => by unfold NoDigit; infer_instance

theorem Letter.wordChar {c : Char} (h : Letter c) : WordChar c := by
  rcases h with h | h
  · left; unfold Char.isAlphanum; rw [h]; rfl
  · exact Or.inr h

theorem WordChar.stop {c : Char} (h : WordChar c) : Stop c := by
  refine ⟨?_, ?_⟩
  · rintro (rfl | rfl | rfl | rfl) <;> revert h <;> decide
  · rintro rfl; revert h; decide

theorem noWord_gap {c : Char} (h : Blank c ∨ c = '/') : NoWord c := by
  rcases h with (rfl | rfl | rfl | rfl) | rfl <;> decide

theorem noName_gap {c : Char} (h : Blank c ∨ c = '/') : NoName c := by
  rcases h with (rfl | rfl | rfl | rfl) | rfl <;> decide

theorem noDigit_gap {c : Char} (h : Blank c ∨ c = '/') : NoDigit c := by
  rcases h with (rfl | rfl | rfl | rfl) | rfl <;> decide

theorem noName_blank {c : Char} (h : Blank c) : NoName c := noName_gap (Or.inl h)

/-! ## Gaps -/

theorem Gap.head {g : Str} (h : Gap g) : Head (fun c => Blank c ∨ c = '/') g := by
  cases h with
  | nil => exact Head.nil
  | blank hb _ => exact Head.cons (Or.inl hb)
  | line _ _ _ => exact Head.cons (Or.inr rfl)
  | block _ _ => exact Head.cons (Or.inr rfl)

theorem Gap.headP {P : Char → Prop} {g r : Str} (h : Gap g) (hP : ∀ c, Blank c ∨ c = '/' → P c) (hr : Head P r) :
    Head P (g ++ r) := by
  cases g with
  | nil => exact hr
  | cons c cs => exact Head.cons (hP c (h.head c rfl))

theorem Gap1.headP {P : Char → Prop} {g r : Str} (h : Gap1 g) (hP : ∀ c, Blank c ∨ c = '/' → P c) :
    Head P (g ++ r) := Head.left h.2 (h.1.head.mono hP)

theorem Blanks.gap {b : Str} (h : Blanks b) : Gap b := by
  induction b with
  | nil => exact .nil
  | cons c cs ih => exact .blank (h c (by simp)) (ih fun d hd => h d (by simp [hd]))

theorem Gap.append {a b : Str} (ha : Gap a) (hb : Gap b) : Gap (a ++ b) := by
  induction ha with
  | nil => exact hb
  | blank h _ ih => exact .blank h ih
  | @line l e s hl he _ ih =>
    have := Gap.line hl he ih
    simpa using this
  | @block c s hc _ ih =>
    have := Gap.block hc ih
    simpa using this

/-- The blanks at the beginning of a gap. -/
theorem Gap.split {g : Str} (h : Gap g) : ∃ b s, g = b ++ s ∧ Blanks b ∧ Gap s ∧ Head (fun c => ¬ Blank c) s := by
  induction h with
  | nil => exact ⟨[], [], rfl, (fun c hc => by cases hc), .nil, Head.nil⟩
  | @blank c s hb _ ih =>
    obtain ⟨b, t, rfl, h1, h2, h3⟩ := ih
    refine ⟨c :: b, t, rfl, ?_, h2, h3⟩
    intro d hd
    rcases List.mem_cons.mp hd with rfl | hd
    · exact hb
    · exact h1 d hd
  | line hl he hs _ => exact ⟨[], _, rfl, (fun c hc => by cases hc), .line hl he hs, Head.cons (by decide)⟩
  | block hl hs _ => exact ⟨[], _, rfl, (fun c hc => by cases hc), .block hl hs, Head.cons (by decide)⟩

/-- One piece of a gap. -/
def piece : Parser Unit := alt [value () (takeWhile1 isSpace), comment, blockComment]

theorem spaces_err {r : Str} (h : Head (fun c => ¬ Blank c) r) : takeWhile1 isSpace r = .err :=
  takeWhile1_err fun c hc => by
    have : ¬ Blank c := h c hc
    rw [← isSpace_iff] at this
    simpa using this

theorem piece_err {r : Str} (h : Head Stop r) : piece r = .err := by
  rw [piece, alt_err (value_err (spaces_err (h.mono fun c hc => hc.1))), alt_err, alt_err]
  · rfl
  · refine value_err (pair_err (tok_head ?_))
    intro hc; exact (h _ hc).2 rfl
  · refine value_err (pair_err (tok_head ?_))
    intro hc; exact (h _ hc).2 rfl

theorem line_ok {l r : Str} (hl : ∀ c ∈ l, c ≠ '\n' ∧ c ≠ '\r')
    (hr : r = [] ∨ (∃ t, r = '\n' :: t) ∨ (∃ t, r = '\r' :: '\n' :: t)) : notLineEnding (l ++ r) = .ok l r := by
  have h1 : ∀ c ∈ l, (c != '\r' && c != '\n') = true := by
    intro c hc
    simp [hl c hc]
  have ht : (l ++ r).takeWhile (fun c => c != '\r' && c != '\n') = l := by
    rw [List.takeWhile_append_of_pos h1]
    rcases hr with rfl | ⟨t, rfl⟩ | ⟨t, rfl⟩ <;> simp
  have hd : (l ++ r).dropWhile (fun c => c != '\r' && c != '\n') = r := by
    rw [List.dropWhile_append_of_pos h1]
    rcases hr with rfl | ⟨t, rfl⟩ | ⟨t, rfl⟩ <;> simp
  simp only [notLineEnding, ht, hd]
  rcases hr with rfl | ⟨t, rfl⟩ | ⟨t, rfl⟩
  · rfl
  · split
    · rename_i h; cases h
    · rename_i h; cases h
    · rfl
  · rfl

theorem slash_err (c : Char) (x : Str) : takeWhile1 isSpace (['/', c] ++ x) = .err := spaces_err (Head.cons (by decide))

theorem comment_ok {l r : Str} (hl : ∀ c ∈ l, c ≠ '\n' ∧ c ≠ '\r')
    (hr : r = [] ∨ (∃ t, r = '\n' :: t) ∨ (∃ t, r = '\r' :: '\n' :: t)) :
    piece (c! "//" ++ (l ++ r)) = .ok () r := by
  rw [piece, alt_err (value_err (slash_err _ _)), alt_ok]
  exact value_ok (pair_ok (tok_ok _ _) (line_ok hl hr))

theorem piece_gap {g r : Str} (hg : Gap g) (hne : g ≠ []) (hr : Head (fun c => ¬ Blank c) r) :
    ∃ t, Gap t ∧ t.length < g.length ∧ piece (g ++ r) = .ok () (t ++ r) := by
  cases hg with
  | nil => exact absurd rfl hne
  | @blank c s hb hs =>
    obtain ⟨b, t, rfl, h1, h2, h3⟩ := hs.split
    refine ⟨t, h2, by simp; omega, ?_⟩
    have e : c :: (b ++ t) ++ r = (c :: b) ++ (t ++ r) := by simp
    rw [e, piece, alt_ok]
    refine value_ok (takeWhile1_ok (by simp) ?_ ?_)
    · intro d hd
      rw [isSpace_iff]
      rcases List.mem_cons.mp hd with rfl | hd
      · exact hb
      · exact h1 d hd
    · intro d hd
      have : ¬ Blank d := by
        cases t with
        | nil => exact hr d hd
        | cons x xs => exact h3 d hd
      rw [← isSpace_iff] at this
      simpa using this
  | @line l e s hl he hs =>
    refine ⟨e ++ s, ?_, by simp; omega, ?_⟩
    · rcases he with rfl | rfl
      · exact .blank (by decide) hs
      · exact .blank (by decide) (.blank (by decide) hs)
    · have e2 : c! "//" ++ l ++ e ++ s ++ r = c! "//" ++ (l ++ (e ++ s ++ r)) := by simp
      rw [e2]
      refine comment_ok hl (Or.inr ?_)
      rcases he with rfl | rfl
      · exact Or.inl ⟨_, rfl⟩
      · exact Or.inr ⟨_, rfl⟩
  | @block b s hb hs =>
    refine ⟨s, hs, by simp; omega, ?_⟩
    have e2 : c! "/*" ++ b ++ c! "*/" ++ s ++ r = c! "/*" ++ (b ++ c! "*/" ++ (s ++ r)) := by simp
    rw [e2, piece, alt_err (value_err (slash_err _ _)), alt_err, alt_ok]
    · refine value_ok (pair_ok (tok_ok _ _) (pair_ok (takeUntil_ok (by simp) hb) (tok_ok _ _)))
    · refine value_err (pair_err (tok_err ?_))
      rintro ⟨t, ht⟩
      simp at ht

theorem pieces_gap {g r t : Str} {l : List Unit} (hg : Gap g) (hr : Head (fun c => ¬ Blank c) r)
    (hp : many0 piece r = .ok l t) : ∃ l, many0 piece (g ++ r) = .ok l t := by
  induction hn : g.length using Nat.strongRecOn generalizing g with
  | _ n ih =>
    by_cases hne : g = []
    · subst hne; exact ⟨l, hp⟩
    · obtain ⟨u, hu, hlt, h1⟩ := piece_gap hg hne hr
      obtain ⟨l', h2⟩ := ih u.length (by omega) hu rfl
      exact ⟨_, many0_cons h1 (by simp; omega) h2⟩

theorem br_eq : br = value () (many1 piece) := rfl

theorem br_gap {g r t : Str} {l : List Unit} (hg : Gap g) (hne : g ≠ []) (hr : Head (fun c => ¬ Blank c) r)
    (hp : many0 piece r = .ok l t) : br (g ++ r) = .ok () t := by
  obtain ⟨u, hu, hlt, h1⟩ := piece_gap hg hne hr
  obtain ⟨l', h2⟩ := pieces_gap hu hr hp
  rw [br_eq]
  exact value_ok (many1_ok h1 h2)

theorem br_err {r : Str} (h : Head Stop r) : br r = .err := by
  rw [br_eq]; exact value_err (many1_err (piece_err h))

theorem br_ok {g r : Str} (hg : Gap1 g) (h : Head Stop r) : br (g ++ r) = .ok () r :=
  br_gap hg.1 hg.2 (h.mono fun c hc => hc.1) (many0_nil (piece_err h))

theorem gap0_ok {g r : Str} (hg : Gap g) (h : Head Stop r) : gap0 (g ++ r) = .ok () r := by
  by_cases hne : g = []
  · subst hne; exact value_ok (many0_nil (br_err h))
  · refine value_ok (many0_cons (br_ok ⟨hg, hne⟩ h) ?_ (many0_nil (br_err h)))
    have := List.length_pos_iff.mpr hne
    simp; omega

/-- No gap. -/
theorem gap0_nil {r : Str} (h : Head Stop r) : gap0 r = .ok () r := gap0_ok .nil h

theorem gap1_ok {g r : Str} (hg : Gap1 g) (h : Head Stop r) : gap1 (g ++ r) = .ok () r :=
  value_ok (many1_ok (br_ok hg h) (many0_nil (br_err h)))

theorem gap1_err {r : Str} (h : Head Stop r) : gap1 r = .err := value_err (many1_err (br_err h))

/-- The gap at the end of a file. -/
theorem br_end {g : Str} (hg : EndGap g) (hne : g ≠ []) : br g = .ok () [] := by
  have hnil : many0 piece [] = .ok [] [] := many0_nil (piece_err Head.nil)
  rcases hg with hg | ⟨g, l, hg, hl, rfl⟩
  · have := br_gap hg hne Head.nil hnil
    simpa using this
  · have h1 : piece (c! "//" ++ l) = .ok () [] := by
      have := comment_ok hl (r := []) (Or.inl rfl)
      simpa using this
    have h2 : many0 piece (c! "//" ++ l) = .ok [()] [] := many0_cons h1 (by simp) hnil
    by_cases hg0 : g = []
    · subst hg0
      rw [br_eq]
      exact value_ok (many1_ok h1 hnil)
    · have := br_gap hg hg0 (r := c! "//" ++ l) (Head.cons (by decide)) h2
      rw [List.append_assoc]; exact this

theorem gap0_end {g : Str} (hg : EndGap g) : gap0 g = .ok () [] := by
  by_cases hne : g = []
  · subst hne; exact gap0_nil Head.nil
  · refine value_ok (many0_cons (br_end hg hne) ?_ (many0_nil (br_err Head.nil)))
    exact List.length_pos_iff.mpr hne

/-! ## Words -/

theorem run_ok {p : Char → Bool} {w r : Str} {c : Char} {cs : Str} (hw : w = c :: cs) (hc : p c = true)
    (hr : Head (fun c => p c = false) r) :
    takeWhile1 p (w ++ r) = .ok (w.takeWhile p) (w.dropWhile p ++ r) := by
  have e : w ++ r = w.takeWhile p ++ (w.dropWhile p ++ r) := by
    rw [← List.append_assoc, List.takeWhile_append_dropWhile]
  rw [e]
  refine takeWhile1_ok ?_ ?_ ?_
  · subst hw; simp [hc]
  · exact fun c hc => List.all_eq_true.mp List.all_takeWhile c hc
  · intro d hd
    cases h : w.dropWhile p with
    | nil => rw [h] at hd; exact hr d hd
    | cons x xs =>
      rw [h] at hd
      cases hd
      have := List.head_dropWhile_not p (l := w) (by rw [h]; simp)
      simpa [h] using this

theorem noWord_iff {c : Char} : NoWord c ↔ c.isAlphanum = false ∧ c ≠ '_' := by
  simp [NoWord, WordChar, not_or]

/-- The rest of a word. -/
theorem wordTail_ok {w r : Str} (hw : ∀ c ∈ w, WordChar c) (hr : Head NoWord r) :
    ∃ l, many0 (alt [takeWhile1 (fun c => isAlpha c || isDigit c), tok (c! "_")]) (w ++ r) = .ok l r := by
  induction hn : w.length using Nat.strongRecOn generalizing w with
  | _ n ih =>
    cases hw0 : w with
    | nil =>
      refine ⟨[], many0_nil ?_⟩
      rw [List.nil_append, alt_err, alt_err, alt_nil]
      · exact tok_head fun hc => (noWord_iff.mp (hr _ hc)).2 rfl
      · refine takeWhile1_err fun c hc => ?_
        rw [alnum_eq]; exact (noWord_iff.mp (hr c hc)).1
    | cons c cs =>
      by_cases hc : (isAlpha c || isDigit c) = true
      · have h1 := run_ok (p := fun c => isAlpha c || isDigit c) (w := w) (r := r) hw0 hc
          (hr.mono fun c hc => by rw [alnum_eq]; exact (noWord_iff.mp hc).1)
        have hlt : (w.dropWhile fun c => isAlpha c || isDigit c).length < w.length := by
          rw [hw0, List.dropWhile_cons_of_pos (p := fun c => isAlpha c || isDigit c) hc]
          have := (List.dropWhile_suffix (l := cs) (fun c => isAlpha c || isDigit c)).length_le
          simp; omega
        obtain ⟨l, h2⟩ := ih _ (by omega) (w := w.dropWhile fun c => isAlpha c || isDigit c)
          (fun d hd => hw d ((List.dropWhile_suffix _).subset hd)) rfl
        rw [← hw0]
        exact ⟨_, many0_cons (alt_ok h1) (by simp; omega) h2⟩
      · have hu : c = '_' := by
          rcases hw c (by simp [hw0]) with h | h
          · rw [alnum_eq] at hc; exact absurd h hc
          · exact h
        subst hu
        obtain ⟨l, h2⟩ := ih cs.length (by rw [← hn, hw0]; simp) (w := cs) (fun d hd => hw d (by simp [hw0, hd])) rfl
        refine ⟨_, many0_cons (a := c! "_") (r := cs ++ r) ?_ (by simp) h2⟩
        rw [alt_err (takeWhile1_err ?_)]
        · exact alt_ok (tok_ok (c! "_") (cs ++ r))
        · intro d hd; cases hd; decide

theorem word_ok {w r : Str} (hw : Word w) (hr : Head NoWord r) : word (w ++ r) = .ok w r := by
  obtain ⟨c, cs, hw0, hc, hcs⟩ := hw
  have key : ∃ x, pair (alt [takeWhile1 isAlpha, tok (c! "_")])
      (many0 (alt [takeWhile1 (fun c => isAlpha c || isDigit c), tok (c! "_")])) (w ++ r) = .ok x r := by
    by_cases ha : isAlpha c = true
    · have h1 := run_ok (p := isAlpha) (w := w) (r := r) hw0 ha (hr.mono fun d hd => by
        rw [isAlpha_eq]
        have := (noWord_iff.mp hd).1
        simp only [Char.isAlphanum, Bool.or_eq_false_iff] at this
        exact this.1)
      obtain ⟨l, h2⟩ := wordTail_ok (w := w.dropWhile isAlpha) (r := r) (fun d hd => by
        have : d ∈ w := (List.dropWhile_suffix _).subset hd
        rw [hw0] at this
        rcases List.mem_cons.mp this with rfl | h
        · exact hc.wordChar
        · exact hcs d h) hr
      exact ⟨_, pair_ok (alt_ok h1) h2⟩
    · have hu : c = '_' := by
        rcases hc with h | h
        · rw [isAlpha_eq] at ha; exact absurd h ha
        · exact h
      subst hu
      obtain ⟨l, h2⟩ := wordTail_ok (w := cs) (r := r) hcs hr
      refine ⟨(c! "_", l), pair_ok (r := cs ++ r) ?_ h2⟩
      rw [hw0, alt_err (takeWhile1_err ?_)]
      · exact alt_ok (tok_ok (c! "_") (cs ++ r))
      · intro d hd; cases hd; decide
  obtain ⟨x, hx⟩ := key
  exact recognize_ok hx rfl

theorem word_err {r : Str} (hr : Head (fun c => ¬ Letter c) r) : word r = .err := by
  refine recognize_err (pair_err ?_)
  rw [alt_err, alt_err, alt_nil]
  · exact tok_head fun hc => hr _ hc (Or.inr rfl)
  · refine takeWhile1_err fun c hc => ?_
    have := hr c hc
    rw [isAlpha_eq]
    simp only [Letter, not_or] at this
    simpa using this.1

theorem Word.ne {w : Str} (h : Word w) : w ≠ [] := by
  obtain ⟨c, cs, rfl, _⟩ := h; simp

theorem Word.chars {w : Str} (h : Word w) : ∀ c ∈ w, WordChar c := by
  obtain ⟨c, cs, rfl, h1, h2⟩ := h
  intro d hd
  rcases List.mem_cons.mp hd with rfl | hd
  · exact h1.wordChar
  · exact h2 d hd

theorem Word.head {w : Str} (h : Word w) : Head Letter w := by
  obtain ⟨c, cs, rfl, h1, h2⟩ := h
  exact Head.cons h1

theorem Word.headP {P : Char → Prop} {w r : Str} (h : Word w) (hP : ∀ c, Letter c → P c) : Head P (w ++ r) :=
  Head.left (Word.ne h) (h.head.mono hP)

theorem Word.stop {w r : Str} (h : Word w) : Head Stop (w ++ r) := h.headP fun c hc => hc.wordChar.stop

/-! ## Names -/

/-- A character of a name. -/
def NameChar (c : Char) : Prop := WordChar c ∨ c = '.'

theorem NameChar.stop {c : Char} (h : NameChar c) : Stop c := by
  rcases h with h | rfl
  · exact h.stop
  · decide

theorem Dotted.chars {n : Str} (h : Dotted n) : ∀ c ∈ n, NameChar c := by
  induction h with
  | word h => exact fun c hc => Or.inl (h.chars c hc)
  | dot h _ ih =>
    intro c hc
    simp only [List.mem_append, List.mem_singleton] at hc
    rcases hc with (hc | hc) | hc
    · exact Or.inl (h.chars c hc)
    · exact Or.inr hc
    · exact ih c hc

theorem Dotted.head {n : Str} (h : Dotted n) : Head Letter n := by
  cases h with
  | word h => exact h.head
  | dot h _ => rw [List.append_assoc]; exact h.headP fun _ hc => hc

theorem Dotted.ne {n : Str} (h : Dotted n) : n ≠ [] := by
  cases h with
  | word h => exact Word.ne h
  | dot h _ => simp

theorem Name.chars {n : Str} (h : Name n) : ∀ c ∈ n, NameChar c := by
  rcases h with h | ⟨m, rfl, h⟩
  · exact h.chars
  · intro c hc
    rcases List.mem_cons.mp hc with rfl | hc
    · exact Or.inr rfl
    · exact h.chars c hc

theorem Name.ne {n : Str} (h : Name n) : n ≠ [] := by
  rcases h with h | ⟨m, rfl, h⟩
  · exact h.ne
  · simp

theorem Name.stop {n r : Str} (h : Name n) : Head Stop (n ++ r) :=
  Head.left h.ne fun c hc => (h.chars c (by
    cases n with
    | nil => cases hc
    | cons d ds => cases hc; simp)).stop

theorem Dotted.last {n : Str} (h : Dotted n) : n.getLast? ≠ some '.' := by
  induction h with
  | @word w h =>
    intro h2
    have := h.chars '.' (List.mem_of_getLast? h2)
    revert this; decide
  | @dot w n h hn ih =>
    rw [List.getLast?_append, Option.or_of_isSome (by simp [hn.ne])]
    exact ih

/-- No two dots following one another. -/
theorem Dotted.noDots {n : Str} (h : Dotted n) : splitAt? (c! "..") n = none := by
  have skip : ∀ (w s : Str), '.' ∉ w → splitAt? (c! "..") s = none → splitAt? (c! "..") (w ++ s) = none := by
    intro w
    induction w with
    | nil => intro s _ hs; exact hs
    | cons c cs ih =>
      intro s hw hs
      have h1 : c ≠ '.' := fun e => hw (by simp [e])
      have h2 : (c! "..").isPrefixOf (c :: (cs ++ s)) = false := by
        simp [List.isPrefixOf, Ne.symm h1]
      rw [List.cons_append, splitAt?, h2]
      rw [ih s (fun e => hw (by simp [e])) hs]; rfl
  have dots : ∀ w, Word w → '.' ∉ w := fun w hw hd => by
    have := hw.chars _ hd
    revert this; decide
  induction h with
  | @word w h =>
    have := skip w [] (dots w h) rfl
    simpa using this
  | @dot w n h hn ih =>
    rw [List.append_assoc]
    refine skip w _ (dots w h) ?_
    show splitAt? (c! "..") ('.' :: n) = none
    have h2 : (c! "..").isPrefixOf ('.' :: n) = false := by
      cases hn0 : n with
      | nil => rfl
      | cons d ds =>
        have := hn.head d (by rw [hn0]; rfl)
        have : d ≠ '.' := by rintro rfl; revert this; decide
        simp [List.isPrefixOf, Ne.symm this]
    rw [splitAt?, h2, ih]; rfl

theorem noName_noWord {c : Char} (h : NoName c) : NoWord c := h.1

theorem dotted_ok {n r : Str} (hn : Dotted n) (hr : Head NoName r) :
    ∃ w t l, word (n ++ r) = .ok w t ∧ t.length < (n ++ r).length ∧
      ∀ k, t.length < k → separatedN (tok (c! ".")) word k t = .ok l r := by
  induction hn with
  | @word w h =>
    refine ⟨w, r, [], word_ok h (hr.mono fun _ hc => hc.1), by
      have := List.length_pos_iff.mpr (Word.ne h); simp; omega, ?_⟩
    intro k hk
    cases k with
    | zero => omega
    | succ k => exact separatedN_nil (tok_head fun hc => (hr _ hc).2 rfl)
  | @dot w n h hn ih =>
    obtain ⟨w', t, l, h1, h2, h3⟩ := ih
    have e : w ++ c! "." ++ n ++ r = w ++ (c! "." ++ (n ++ r)) := by simp
    refine ⟨w, c! "." ++ (n ++ r), w' :: l, ?_, ?_, ?_⟩
    · rw [e]; exact word_ok h (Head.cons (by decide))
    · have := List.length_pos_iff.mpr (Word.ne h); rw [e]; simp; omega
    · intro k hk
      cases k with
      | zero => omega
      | succ k =>
        refine separatedN_cons (tok_ok (c! ".") (n ++ r)) (by simp) h1 (h3 k ?_)
        simp only [List.length_append, List.length_cons, List.length_nil] at hk h2; omega

theorem name_ok {n r : Str} (hn : Name n) (hr : Head NoName r) : qualifiableName (n ++ r) = .ok n r := by
  rcases hn with hn | ⟨m, rfl, hm⟩
  · obtain ⟨w, t, l, h1, h2, h3⟩ := dotted_ok hn hr
    refine verify_ok (recognize_ok (a := (none, w :: l)) (pair_ok (opt_err ?_) (separatedList1_ok h1 (h3 _ (by omega)))) rfl) ?_
    · refine tok_head ?_
      intro hc
      have : Letter '.' := hn.head '.' (by
        have := hn.ne
        cases n with
        | nil => exact absurd rfl this
        | cons c cs => exact hc)
      revert this; decide
    · have h4 := hn.last
      have h5 := hn.noDots
      rw [h5]
      simp [h4]
  · obtain ⟨w, t, l, h1, h2, h3⟩ := dotted_ok hm hr
    refine verify_ok (recognize_ok (a := (some (c! "."), w :: l)) (pair_ok (opt_ok (tok_ok (c! ".") (m ++ r)))
      (separatedList1_ok h1 (h3 _ (by omega)))) rfl) ?_
    have h4 : ('.' :: m).getLast? ≠ some '.' := by
      have e : ('.' :: m).getLast? = m.getLast? := by
        cases h : m with
        | nil => exact absurd h hm.ne
        | cons c cs => simp
      rw [e]; exact hm.last
    have h5 : splitAt? (c! "..") ('.' :: m) = none := by
      have h2 : (c! "..").isPrefixOf ('.' :: m) = false := by
        cases hn0 : m with
        | nil => rfl
        | cons d ds =>
          have := hm.head d (by rw [hn0]; rfl)
          have : d ≠ '.' := by rintro rfl; revert this; decide
          simp [List.isPrefixOf, Ne.symm this]
      rw [splitAt?, h2, hm.noDots]; rfl
    rw [h5]
    simp only [Option.isNone_none, Bool.and_true, bne_iff_ne, ne_eq]
    exact h4

theorem name_err {r : Str} (hr : Head (fun c => ¬ Letter c ∧ c ≠ '.') r) : qualifiableName r = .err := by
  refine verify_err (recognize_err (pair_err2 (opt_err (tok_head fun hc => (hr _ hc).2 rfl)) ?_))
  exact separatedList1_err (word_err (hr.mono fun _ hc => hc.1))

/-! ## Numbers -/

theorem digit_facts : ∀ d, d < 10 → isDigit d.digitChar = true ∧ d.digitChar.toNat - '0'.toNat = d := by decide

theorem digitsVal_append (b : Nat) (s : Str) (c : Char) : digitsVal b (s ++ [c]) = b * digitsVal b s +
    (if isDigit c then c.toNat - '0'.toNat else if 'a' ≤ c then c.toNat - 'a'.toNat + 10 else c.toNat - 'A'.toNat + 10) := by
  simp only [digitsVal, List.foldl_append, List.foldl_cons, List.foldl_nil]

theorem Decimal.facts {n : Nat} {s : Str} (h : Decimal n s) : s ≠ [] ∧ (∀ c ∈ s, isDigit c = true) ∧ digitsVal 10 s = n := by
  induction h with
  | @digit d hd =>
    have := digit_facts d hd
    refine ⟨by simp, by simp [this.1], ?_⟩
    have e := digitsVal_append 10 [] d.digitChar
    rw [this.1, this.2] at e
    simpa [digitsVal] using e
  | @more n d s _ hd ih =>
    have := digit_facts d hd
    refine ⟨by simp, ?_, ?_⟩
    · intro c hc
      simp only [List.mem_append, List.mem_singleton] at hc
      rcases hc with hc | rfl
      · exact ih.2.1 c hc
      · exact this.1
    · rw [digitsVal_append, this.1, this.2, ih.2.2]; rfl

theorem integer_ok {n : Nat} {s r : Str} (h : Decimal n s) (hn : n < 2 ^ 31) (hr : Head NoDigit r) :
    integer (s ++ r) = .ok (n : Int) r := by
  obtain ⟨h1, h2, h3⟩ := h.facts
  refine mapRes_ok (takeWhile1_ok h1 h2 fun c hc => ?_) (t := []) ?_
  · rw [isDigit_eq]; exact hr c hc
  · simp only [parseNat32, h3, hn, if_true]

theorem integer_err {r : Str} (hr : Head NoDigit r) : integer r = .err :=
  mapRes_err (takeWhile1_err fun c hc => by rw [isDigit_eq]; exact hr c hc)

theorem Decimal.headP {P : Char → Prop} {n : Nat} {s r : Str} (h : Decimal n s) (hP : ∀ c, c.isDigit = true → P c) :
    Head P (s ++ r) := by
  obtain ⟨h1, h2, h3⟩ := h.facts
  refine Head.left h1 fun c hc => hP c ?_
  rw [← isDigit_eq]
  cases s with
  | nil => cases hc
  | cons d ds => cases hc; exact h2 _ (by simp)

theorem digit_wordChar {c : Char} (h : c.isDigit = true) : WordChar c := by
  left; unfold Char.isAlphanum; rw [h]; simp

theorem digit_not_letter {c : Char} (h : c.isDigit = true) : ¬ Letter c := by
  rintro (h2 | rfl)
  · simp only [Char.isDigit, Char.isAlpha, Char.isUpper, Char.isLower, Bool.or_eq_true, Bool.and_eq_true, decide_eq_true_eq,
      ge_iff_le] at h h2
    have e1 : ('0'.val).toNat = 48 := rfl
    have e2 : ('9'.val).toNat = 57 := rfl
    have e3 : ('A'.val).toNat = 65 := rfl
    have e4 : ('a'.val).toNat = 97 := rfl
    simp only [UInt32.le_iff_toNat_le] at h h2
    omega
  · revert h; decide

theorem hex_facts : ∀ d, d < 16 → ∀ c ∈ [d.digitChar, d.digitChar.toUpper], isHexDigit c = true ∧
    (if isDigit c then c.toNat - '0'.toNat else if 'a' ≤ c then c.toNat - 'a'.toNat + 10 else c.toNat - 'A'.toNat + 10) = d := by
  decide

theorem HexDigit.facts {d : Nat} {c : Char} (h : HexDigit d c) : isHexDigit c = true ∧
    (if isDigit c then c.toNat - '0'.toNat else if 'a' ≤ c then c.toNat - 'a'.toNat + 10 else c.toNat - 'A'.toNat + 10) = d :=
  hex_facts d h.1 c (by rcases h.2 with rfl | rfl <;> simp)

theorem Hex.facts {n : Nat} {s : Str} (h : Hex n s) : s ≠ [] ∧ (∀ c ∈ s, isHexDigit c = true) ∧ digitsVal 16 s = n := by
  induction h with
  | @digit d c hd =>
    have := hd.facts
    refine ⟨by simp, by simp [this.1], ?_⟩
    have e := digitsVal_append 16 [] c
    rw [this.2] at e
    simpa [digitsVal] using e
  | @more n d c s _ hd ih =>
    have := hd.facts
    refine ⟨by simp, ?_, ?_⟩
    · intro c hc
      simp only [List.mem_append, List.mem_singleton] at hc
      rcases hc with hc | rfl
      · exact ih.2.1 c hc
      · exact this.1
    · rw [digitsVal_append, this.2, ih.2.2]

theorem isHexDigit_wordChar {c : Char} (h : isHexDigit c = true) : WordChar c := by
  simp only [isHexDigit, Bool.or_eq_true, Bool.and_eq_true, decide_eq_true_eq] at h
  left
  rw [← alnum_eq]
  simp only [isAlpha, Bool.or_eq_true, Bool.and_eq_true, decide_eq_true_eq]
  rcases h with (h | h) | h
  · exact Or.inr h
  · exact Or.inl (Or.inl ⟨h.1, Char.le_trans h.2 (by decide)⟩)
  · exact Or.inl (Or.inr ⟨h.1, Char.le_trans h.2 (by decide)⟩)

theorem hexInteger_ok {n : Nat} {s r : Str} (h : Hex n s) (hn : n < 2 ^ 31) (hr : Head NoWord r) :
    hexInteger (c! "0x" ++ s ++ r) = .ok (n : Int) r := by
  obtain ⟨h1, h2, h3⟩ := h.facts
  rw [List.append_assoc, hexInteger, preceded_ok (tok_ok _ _)]
  refine mapRes_ok (takeWhile1_ok h1 h2 fun c hc => ?_) (t := []) ?_
  · rw [← Bool.not_eq_true]
    exact fun h => hr c hc (isHexDigit_wordChar h)
  · simp only [parseNat32, h3, hn, if_true]

theorem hexInteger_err {r : Str} (hr : ¬ c! "0x" <+: r) : hexInteger r = .err := preceded_err (tok_err hr)

theorem Decimal.noHex {n : Nat} {s r : Str} (h : Decimal n s) (hr : Head NoWord r) : ¬ c! "0x" <+: s ++ r := by
  obtain ⟨h1, h2, h3⟩ := h.facts
  rintro ⟨t, ht⟩
  cases s with
  | nil => exact h1 rfl
  | cons c cs =>
    cases cs with
    | nil =>
      cases r with
      | nil => simp at ht
      | cons d ds =>
        simp at ht
        have := hr d rfl
        rw [← ht.2.1] at this
        revert this; decide
    | cons d ds =>
      simp at ht
      have := h2 'x' (by rw [← ht.2.1]; simp)
      revert this; decide

/-! ## Keywords -/

/-- Another keyword. -/
theorem tok_lit {k k' x : Str} (h : ¬ k <+: k') (h' : ¬ k' <+: k) : tok k (k' ++ x) = .err := by
  apply tok_err
  intro hp
  rcases List.prefix_or_prefix_of_prefix hp (List.prefix_append k' x) with h1 | h1
  · exact h h1
  · exact h' h1

/-- A name that is not the keyword, though it may begin like it. -/
theorem kw_err {k n r : Str} {β : Type} {q : Parser β} (hk : ∀ c ∈ k, WordChar c) (hn : ∀ c ∈ n, NameChar c)
    (hne : n ≠ k) (hr : Head NoWord r) (hq : ∀ s, s ≠ [] → Head NameChar s → q s = .err) : pair (tok k) q (n ++ r) = .err := by
  by_cases hp : k <+: n ++ r
  · rcases List.prefix_or_prefix_of_prefix hp (List.prefix_append n r) with h1 | ⟨x, hx⟩
    · obtain ⟨x, rfl⟩ := h1
      have hxne : x ≠ [] := by rintro rfl; simp at hne
      rw [List.append_assoc]
      refine pair_err2 (tok_ok _ _) (hq _ (by simp [hxne]) (Head.left hxne fun c hc => hn c ?_))
      cases x with
      | nil => cases hc
      | cons d ds => cases hc; simp
    · exfalso
      subst hx
      have hxne : x ≠ [] := by rintro rfl; simp at hne
      obtain ⟨y, hy⟩ := hp
      rw [List.append_assoc] at hy
      have hy := List.append_cancel_left hy
      cases x with
      | nil => exact hxne rfl
      | cons d ds =>
        rw [List.cons_append] at hy
        exact hr d (by rw [← hy]; rfl) (hk d (by simp))
  · exact pair_err (tok_err hp)

theorem gap1_name {s : Str} (hne : s ≠ []) (h : Head NameChar s) : gap1 s = .err := gap1_err (h.mono fun _ hc => hc.stop)

end QP.Pbrs.Grammar
