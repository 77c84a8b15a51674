import Verif.Proofs.FileText
import Verif.Spec.Opening
/-!
# Files the parser rejects, or on which it panics
-/

set_option linter.unusedVariables false

namespace QP.Pbrs.Grammar
open Nom Parse

variable {syn : Syntax}

/-- The parser does not get past `x`: an error or a panic. -/
inductive Bad : Bool → {α : Type} → Res α → Prop where
  | err {α : Type} : Bad false (Res.err : Res α)
  | panic {α : Type} : Bad true (Res.panic : Res α)

theorem Bad.map {α β : Type} {b : Bool} {p : Parser α} {g : α → β} {s : Str} (h : Bad b (p s)) : Bad b (Nom.map p g s) := by
  cases b
  · have : p s = .err := by cases hp : p s <;> rw [hp] at h <;> first | rfl | cases h
    rw [map_err this]; exact .err
  · have : p s = .panic := by cases hp : p s <;> rw [hp] at h <;> first | rfl | cases h
    simp only [Nom.map, Nom.andThen, this]; exact .panic

theorem Bad.eq_err {α : Type} {x : Res α} (h : Bad false x) : x = .err := by cases h; rfl

theorem Bad.eq_panic {α : Type} {x : Res α} (h : Bad true x) : x = .panic := by cases h; rfl

theorem Bad.alt {α : Type} {b : Bool} {p : Parser α} {ps : List (Parser α)} {s : Str} (h : Bad b (p s))
    (hps : b = false → alt ps s = .err) : Bad b (Nom.alt (p :: ps) s) := by
  cases b
  · rw [alt_err h.eq_err, hps rfl]; exact .err
  · simp only [Nom.alt, h.eq_panic]; exact .panic

/-- If no keyword is first, then only a field can follow. -/
theorem ev_bad {b : Bool} {n x : Str} (h1 : ∀ c ∈ n, NameChar c) (hne : n ≠ []) (h2 : Head NoWord x) (h3 : n ∉ keywords)
    (h : Bad b (messageField syn (n ++ x))) : Bad b (ev syn (n ++ x)) := by
  simp only [keywords, List.mem_cons, List.not_mem_nil, or_false, not_or] at h3
  obtain ⟨k1, k2, k3, k4, k5, k6⟩ := h3
  have h4 := reserved_err h1 h2 k1
  have hst : Head Stop (n ++ x) := by
    refine Head.left hne fun c hc => (h1 c ?_).stop
    cases n with
    | nil => cases hc
    | cons d ds => cases hc; simp
  have kw : ∀ k : Str, (∀ c ∈ k, WordChar c) → n ≠ k → pair (tok k) gap1 (n ++ x) = .err := fun k hk hne =>
    kw_err hk h1 hne h2 fun s => gap1_name
  rw [show ev syn (n ++ x) = alt [Nom.map reservedNums .reservedNums, Nom.map reservedNames .reservedNames,
    Nom.map (messageField syn) .field, Nom.map (message syn) .message, Nom.map enumerator .enumerator, Nom.map (oneOf syn) .oneof,
    Nom.map extensions (fun _ => .extensions), value .ignore optionIgnore, value .ignore br] (n ++ x) from rfl,
    alt_err (map_err h4.1), alt_err (map_err h4.2)]
  refine Bad.alt h.map fun _ => ?_
  refine (alt_err (map_err ?_)).trans ((alt_err (map_err ?_)).trans ((alt_err (map_err ?_)).trans ((alt_err (map_err ?_)).trans
    ((alt_err (value_err ?_)).trans ((alt_err (value_err ?_)).trans alt_nil)))))
  · rw [message_eq]; exact map_err (terminated_err (pair_err (delimited_err (kw _ (by decide) k2))))
  · exact map_err (terminated_err (pair_err (delimited_err (kw _ (by decide) k3))))
  · exact map_err (pair_err (preceded_err (kw _ (by decide) k4)))
  · exact mapRes_err (delimited_err (kw _ (by decide) k5))
  · exact value_err (delimited_err (kw _ (by decide) k6))
  · exact br_err hst

/-- Nothing of `x` can be read: the message fails. -/
theorem message_bad {b : Bool} {m : Message} {g1 g2 s g3 x : Str} (h1 : Gap1 g1) (hn : Word m.name) (h2 : Gap g2)
    (hs : BodyText syn m s) (h3 : Gap g3) (hne : x ≠ []) (hx : Head NameChar x) (h : Bad b (ev syn x)) :
    Bad b (message syn (c! "message" ++ (g1 ++ (m.name ++ (g2 ++ (c! "{" ++ (s ++ (g3 ++ x)))))))) := by
  have hst : Head Stop x := hx.mono fun _ hc => hc.stop
  have hc : Clean (g3 ++ x) := by
    have := name_clean (r := []) hne hx h3
    rwa [List.append_nil] at this
  have hpre : delimited (pair (tok (c! "message")) gap1) word gap0
      (c! "message" ++ (g1 ++ (m.name ++ (g2 ++ (c! "{" ++ (s ++ (g3 ++ x))))))) = .ok m.name (c! "{" ++ (s ++ (g3 ++ x))) :=
    delimited_ok (pair_ok (tok_ok _ _) (gap1_ok h1 hn.stop))
      (word_ok hn (Gap.headP h2 (fun _ => noWord_gap) (Head.cons (by decide)))) (gap0_ok h2 (Head.cons (by decide)))
  rw [message_eq]
  cases b
  · have hb : ∃ evs, many0 (ev syn) (s ++ (g3 ++ x)) = .ok evs x := by
      rcases many_end (p := ev syn) (x := x) h3 (fun hg => ev_gap hg hst) h.eq_err with h | h
      · obtain ⟨evs, h, _⟩ := (body_ok hs).1 hc h; exact ⟨evs, h⟩
      · obtain ⟨evs, h, _⟩ := (body_ok hs).1 hc h; exact ⟨evs, h⟩
    obtain ⟨evs, hb⟩ := hb
    refine (map_err (terminated_err (pair_err2 hpre (delimited_err3 (tok_ok _ _) hb (tok_head fun hh => ?_)))) : _ = Res.err) ▸ Bad.err
    have := hx _ hh
    revert this; unfold NameChar; decide
  · have hb0 : many0 (ev syn) x = .panic := by rw [many0_eq]; simp only [h.eq_panic]
    have hb1 : many0 (ev syn) (g3 ++ x) = .panic := by
      by_cases hg : g3 = []
      · subst hg; exact hb0
      · refine many0_panic (ev_gap ⟨h3, hg⟩ hst) ?_ hb0
        have := List.length_pos_iff.mpr hg
        simp only [List.length_append]; omega
    have hb : many0 (ev syn) (s ++ (g3 ++ x)) = .panic := (body_ok hs).2 hc hb1
    have : ∀ {α β γ : Type} (f : α × List MessageEvent → β) (p : Parser α) (q : Parser γ) (y : Str) (a : α),
        p y = .ok a (c! "{" ++ (s ++ (g3 ++ x))) → Bad true (Nom.map (terminated (pair p
          (delimited (tok (c! "{")) (many0 (ev syn)) (tok (c! "}")))) q) f y) := by
      intro α β γ f p q y a hp
      simp only [Nom.map, terminated, pair, delimited, preceded, Nom.andThen, hp, tok_ok, hb]
      exact .panic
    exact this _ _ _ _ _ hpre

theorem inMessage_head {t x : Str} (h : InMessage syn t) : t ++ x ≠ [] ∧ Head NameChar (t ++ x) := by
  cases h <;> (simp only [List.append_assoc]; exact ⟨by simp, Head.cons (by unfold NameChar; decide)⟩)

theorem inMessage_bad {b : Bool} {t x : Str} (h : InMessage syn t) (hne : x ≠ []) (hx : Head NameChar x) (hb : Bad b (ev syn x)) :
    Bad b (message syn (t ++ x)) := by
  induction h with
  | here h1 hn h2 hs h3 =>
    simp only [List.append_assoc]
    exact message_bad h1 hn h2 hs h3 hne hx hb
  | @nested m g1 g2 s g3 t h1 hn h2 hs h3 ht ih =>
    simp only [List.append_assoc]
    refine message_bad h1 hn h2 hs h3 (inMessage_head ht).1 (inMessage_head ht).2 ?_
    cases ht with
    | here h1 hn h2 hs h3 =>
      simp only [List.append_assoc] at ih ⊢
      rw [ev_kw (kwWord (by decide) (by decide)) (by decide) (by decide) (by decide) h1 hn.stop (nameBrace_err hn h2)]
      refine Bad.alt ih.map fun _ => ?_
      exact (alt_err (map_err (map_err (terminated_err (pair_err (delimited_err (pair_err (tok_lit (by decide) (by decide))))))))).trans
        ((alt_err (map_err (map_err (pair_err (preceded_err (pair_err (tok_lit (by decide) (by decide)))))))).trans
        ((alt_err (map_err (mapRes_err (delimited_err (pair_err (tok_lit (by decide) (by decide))))))).trans
        ((alt_err (value_err (value_err (delimited_err (pair_err (tok_lit (by decide) (by decide))))))).trans
        ((alt_err (value_err (br_err (Head.lit (by decide))))).trans alt_nil))))
    | nested h1 hn h2 hs h3 _ =>
      simp only [List.append_assoc] at ih ⊢
      rw [ev_kw (kwWord (by decide) (by decide)) (by decide) (by decide) (by decide) h1 hn.stop (nameBrace_err hn h2)]
      refine Bad.alt ih.map fun _ => ?_
      exact (alt_err (map_err (map_err (terminated_err (pair_err (delimited_err (pair_err (tok_lit (by decide) (by decide))))))))).trans
        ((alt_err (map_err (map_err (pair_err (preceded_err (pair_err (tok_lit (by decide) (by decide)))))))).trans
        ((alt_err (map_err (mapRes_err (delimited_err (pair_err (tok_lit (by decide) (by decide))))))).trans
        ((alt_err (value_err (value_err (delimited_err (pair_err (tok_lit (by decide) (by decide))))))).trans
        ((alt_err (value_err (br_err (Head.lit (by decide))))).trans alt_nil))))

theorem fe_bad {b : Bool} {t x : Str} (h : InMessage syn t) (hb : Bad b (message syn (t ++ x))) :
    Bad b (fileEvent syn (t ++ x)) ∧ syntaxP (t ++ x) = .err := by
  obtain ⟨y, e⟩ : ∃ y, t ++ x = c! "message" ++ y := by
    cases h <;> (simp only [List.append_assoc]; exact ⟨_, rfl⟩)
  rw [e] at hb ⊢
  refine ⟨?_, syntaxP_err (by decide) (by decide)⟩
  rw [show fileEvent syn (c! "message" ++ y) = alt [Nom.map syntaxP .syntax_, Nom.map importP .import_, Nom.map packageP .package,
    Nom.map (message syn) .message, Nom.map enumerator .enum, Nom.map rpcService .service, Nom.map (extend syn) .extend,
    value .ignore optionIgnore, value .ignore br] (c! "message" ++ y) from rfl,
    alt_err (map_err (syntaxP_err (by decide) (by decide))), alt_err (map_err (importP_err (by decide) (by decide))),
    alt_err (map_err (packageP_err (by decide) (by decide)))]
  refine Bad.alt hb.map fun _ => ?_
  exact (alt_err (map_err (enumerator_err (by decide) (by decide)))).trans
    ((alt_err (map_err (rpcService_err (by decide) (by decide)))).trans
    ((alt_err (map_err (extend_err (by decide) (by decide)))).trans
    ((alt_err (value_err (value_err (delimited_err (pair_err (tok_lit (by decide) (by decide))))))).trans
    ((alt_err (value_err (br_err (Head.lit (by decide))))).trans alt_nil))))

/-- What the events of the file come to. -/
theorem events_bad {b : Bool} {F : File} {s g t x : Str} (hs : StatementsText syn F s) (hg : Gap g) (ht : InMessage syn t)
    (hb : Bad b (fileEvent syn (t ++ x))) :
    if b then many0 (fileEvent syn) (s ++ (g ++ (t ++ x))) = .panic
    else ∃ evs, many0 (fileEvent syn) (s ++ (g ++ (t ++ x))) = .ok evs (t ++ x) := by
  obtain ⟨hne, hh⟩ := inMessage_head (x := x) ht
  have hst : Head Stop (t ++ x) := hh.mono fun _ hc => hc.stop
  have hc : Clean (g ++ (t ++ x)) := by
    have := name_clean (r := []) hne hh hg
    rwa [List.append_nil] at this
  cases b
  · simp only [Bool.false_eq_true, if_false]
    rcases many_end (p := fileEvent syn) (x := t ++ x) hg (fun hg => fe_gap hg hst) hb.eq_err with h | h
    · obtain ⟨evs, h, _⟩ := (statements_ok hs).1.2.1 hc h; exact ⟨evs, h⟩
    · obtain ⟨evs, h, _⟩ := (statements_ok hs).1.2.1 hc h; exact ⟨evs, h⟩
  · simp only [if_true]
    refine (statements_ok hs).1.2.2 hc ?_
    have hb0 : many0 (fileEvent syn) (t ++ x) = .panic := by rw [many0_eq]; simp only [hb.eq_panic]
    by_cases hge : g = []
    · subst hge; exact hb0
    · refine many0_panic (fe_gap ⟨hg, hge⟩ hst) ?_ hb0
      have := List.length_pos_iff.mpr hge
      simp only [List.length_append]; omega

theorem not_white {c : Char} (h : NameChar c) : isWhite c = false := by
  have hv : 33 ≤ c.toNat ∧ c.toNat ≤ 126 := by
    rcases h with (h | h) | h
    · simp only [Char.isAlphanum, Char.isAlpha, Char.isUpper, Char.isLower, Char.isDigit, Bool.or_eq_true, Bool.and_eq_true,
        decide_eq_true_eq] at h
      have e : c.toNat = c.val.toNat := rfl
      rcases h with (⟨h1, h2⟩ | ⟨h1, h2⟩) | ⟨h1, h2⟩ <;>
        (simp only [ge_iff_le, UInt32.le_iff_toNat_le] at h1 h2; rw [e]; simp at h1 h2; omega)
    · subst h; decide
    · subst h; decide
  exact visible_not_white hv

theorem trim_ne {x : Str} (hne : x ≠ []) (h : Head NameChar x) : (trim x).isEmpty = false := by
  cases x with
  | nil => exact absurd rfl hne
  | cons c cs =>
    have hc := not_white (h c rfl)
    have e : (c :: cs).dropWhile isWhite = c :: cs := by simp [hc]
    rw [trim, e]
    rw [← Bool.not_eq_true, List.isEmpty_iff]
    intro h2
    have h2 := List.reverse_eq_nil_iff.mp h2
    rw [List.reverse_cons, List.dropWhile_append] at h2
    split at h2
    · simp [hc] at h2
    · rename_i h3
      simp at h2

/-- The beginning of a file, and something that cannot be read. -/
theorem opening_bad {b : Bool} {o x : Str} (ho : Opening syn o) (hne : x ≠ []) (hx : Head NameChar x) (hb : Bad b (ev syn x)) :
    Bad b (readProto (o ++ x)) := by
  cases ho with
  | @default F s g t hs hg ht =>
    obtain ⟨h1, h2⟩ := fe_bad ht (inMessage_bad ht hne hx hb)
    have h3 := events_bad hs hg ht h1
    have e : s ++ g ++ t ++ x = s ++ (g ++ (t ++ x)) := by simp only [List.append_assoc]
    have hsyn : syntaxP (s ++ (g ++ (t ++ x))) = .err := by
      refine (statements_ok hs).1.1 _ ?_
      by_cases hge : g = []
      · subst hge; exact h2
      · exact delimited_err (pair_err (tok_start (Gap1.headP ⟨hg, hge⟩ fun _ => noStart_gap) (by unfold Letter; decide)))
    rw [e]
    cases b
    · obtain ⟨evs, h3⟩ := h3
      simp only [readProto, fileDescriptor, scan_none hsyn]
      rw [map_ok h3]
      simp only
      rw [trim_ne (inMessage_head ht).1 (inMessage_head ht).2]
      exact .err
    · simp only [if_true] at h3
      simp only [readProto, fileDescriptor, scan_none hsyn, Nom.map, Nom.andThen, h3]
      exact .panic
  | @stated syn F h s g t hh hs hg ht =>
    obtain ⟨h1, h2⟩ := fe_bad ht (inMessage_bad ht hne hx hb)
    have h3 := events_bad hs hg ht h1
    have e : h ++ s ++ g ++ t ++ x = h ++ (s ++ (g ++ (t ++ x))) := by simp only [List.append_assoc]
    have hsyn := syntax_ok (r := s ++ (g ++ (t ++ x))) hh
    have hrest : s ++ (g ++ (t ++ x)) ≠ [] := by
      have := (inMessage_head (x := x) ht).1
      simp only [ne_eq, List.append_eq_nil_iff, not_and] at this ⊢
      exact fun _ _ => this
    have hlen : (s ++ (g ++ (t ++ x))).length < (h ++ (s ++ (g ++ (t ++ x)))).length := by
      have := syntax_pos hh
      simp only [List.length_append]; omega
    rw [e]
    cases b
    · obtain ⟨evs, h3⟩ := h3
      have h4 := many0_cons (fe_syntax hsyn) hlen h3
      simp only [readProto, fileDescriptor, scan_stated hsyn hrest]
      rw [map_ok h4]
      simp only
      rw [trim_ne (inMessage_head ht).1 (inMessage_head ht).2]
      exact .err
    · simp only [if_true] at h3
      have h4 := many0_panic (fe_syntax hsyn) hlen h3
      simp only [readProto, fileDescriptor, scan_stated hsyn hrest, Nom.map, Nom.andThen, h4]
      exact .panic

/-! ## Fields -/

/-- A label and what follows it. -/
theorem label_any {m : Bool} {q : Frequency} {l n x : Str} (hl : LabelText syn m q l) (h1 : ∀ c ∈ n, NameChar c) (hne : n ≠ [])
    (h2 : Head NoWord x) (h3 : n ∉ [c! "optional", c! "repeated", c! "required", c! "reserved"]) :
    ∃ fr, opt (terminated frequency gap1) (l ++ (n ++ x)) = .ok fr (n ++ x) := by
  have hno : opt (terminated frequency gap1) ([] ++ (n ++ x)) = .ok none (n ++ x) := by
    rw [List.nil_append]; exact noLabel h1 h2 h3
  have hstop : Head Stop (n ++ x) := by
    refine Head.left hne fun c hc => (h1 c ?_).stop
    cases n with
    | nil => cases hc
    | cons d ds => cases hc; simp
  have ho : ∀ g, Gap1 g → opt (terminated frequency gap1) (c! "optional" ++ g ++ (n ++ x)) = .ok (some .optional) (n ++ x) := by
    intro g hg
    rw [List.append_assoc]
    exact opt_ok (terminated_ok (alt_ok (value_ok (tok_ok _ _))) (gap1_ok hg hstop))
  have hp : ∀ g, Gap1 g → opt (terminated frequency gap1) (c! "repeated" ++ g ++ (n ++ x)) = .ok (some .repeated) (n ++ x) := by
    intro g hg
    rw [List.append_assoc]
    refine opt_ok (terminated_ok (r := g ++ (n ++ x)) ?_ (gap1_ok hg hstop))
    rw [frequency, alt_err (value_err (tok_lit (by decide) (by decide)))]
    exact alt_ok (value_ok (tok_ok _ _))
  have hq : ∀ g, Gap1 g → opt (terminated frequency gap1) (c! "required" ++ g ++ (n ++ x)) = .ok (some .required) (n ++ x) := by
    intro g hg
    rw [List.append_assoc]
    refine opt_ok (terminated_ok (r := g ++ (n ++ x)) ?_ (gap1_ok hg hstop))
    rw [frequency, alt_err (value_err (tok_lit (by decide) (by decide))),
      alt_err (value_err (tok_lit (by decide) (by decide)))]
    exact alt_ok (value_ok (tok_ok _ _))
  cases hl with
  | optional2 hg => exact ⟨_, ho _ hg⟩
  | required2 hg => exact ⟨_, hq _ hg⟩
  | repeated2 hg => exact ⟨_, hp _ hg⟩
  | none2 => exact ⟨_, hno⟩
  | map2 => exact ⟨_, hno⟩
  | optional3 hg => exact ⟨_, ho _ hg⟩
  | repeated3 hg => exact ⟨_, hp _ hg⟩
  | none3 => exact ⟨_, hno⟩
  | map3 => exact ⟨_, hno⟩

/-- How a labelled thing begins. -/
theorem label_first {m : Bool} {q : Frequency} {l n x : Str} (hl : LabelText syn m q l) (h1 : ∀ c ∈ n, NameChar c) (hne : n ≠ [])
    (h2 : Head NoWord x) (h3 : n ∉ keywords) :
    ∃ n' x', l ++ (n ++ x) = n' ++ x' ∧ (∀ c ∈ n', NameChar c) ∧ n' ≠ [] ∧ Head NoWord x' ∧ n' ∉ keywords := by
  have lab : ∀ k g, Gap1 g → (∀ c ∈ k, WordChar c) → k ∉ keywords → k ≠ [] →
      ∃ n' x', k ++ g ++ (n ++ x) = n' ++ x' ∧ (∀ c ∈ n', NameChar c) ∧ n' ≠ [] ∧ Head NoWord x' ∧ n' ∉ keywords :=
    fun k g hg hk hne hne2 => ⟨k, g ++ (n ++ x), by simp only [List.append_assoc], fun c hc => Or.inl (hk c hc), hne2,
      Gap1.headP hg fun _ => noWord_gap, hne⟩
  have nol : ∃ n' x', [] ++ (n ++ x) = n' ++ x' ∧ (∀ c ∈ n', NameChar c) ∧ n' ≠ [] ∧ Head NoWord x' ∧ n' ∉ keywords :=
    ⟨n, x, rfl, h1, hne, h2, h3⟩
  cases hl with
  | optional2 hg => exact lab _ _ hg (by decide) (by decide) (by decide)
  | required2 hg => exact lab _ _ hg (by decide) (by decide) (by decide)
  | repeated2 hg => exact lab _ _ hg (by decide) (by decide) (by decide)
  | none2 => exact nol
  | map2 => exact nol
  | optional3 hg => exact lab _ _ hg (by decide) (by decide) (by decide)
  | repeated3 hg => exact lab _ _ hg (by decide) (by decide) (by decide)
  | none3 => exact nol
  | map3 => exact nol

/-- A field that cannot be read: the file cannot be read. -/
theorem field_bad {b m : Bool} {q : Frequency} {o l n x : Str} (ho : Opening syn o) (hl : LabelText syn m q l)
    (h1 : ∀ c ∈ n, NameChar c) (hne : n ≠ []) (h2 : Head NoWord x) (h3 : n ∉ keywords)
    (h : Bad b (messageField syn (l ++ (n ++ x)))) : Bad b (readProto (o ++ (l ++ (n ++ x)))) := by
  obtain ⟨n', x', e, h4, h5, h6, h7⟩ := label_first hl h1 hne h2 h3
  rw [e] at h ⊢
  refine opening_bad ho (by simp [h5]) (Head.left h5 fun c hc => h4 c ?_) (ev_bad h4 h5 h6 h7 h)
  cases n' with
  | nil => cases hc
  | cons d ds => cases hc; simp

/-- How a type begins, if it is not a keyword. -/
theorem type_word {t : FieldType} {ty r : Str} (h : TypeText t ty) (hk : ty ∉ keywords) (hr : Head NoWord r) :
    ∃ n x, ty ++ r = n ++ x ∧ (∀ c ∈ n, NameChar c) ∧ n ≠ [] ∧ Head NoWord x ∧
      n ∉ [c! "optional", c! "repeated", c! "required", c! "reserved"] ∧ n ∉ keywords := by
  cases h with
  | scalar h =>
    have key : ∀ p ∈ scalars, p.2 ∉ [c! "optional", c! "repeated", c! "required", c! "reserved"] ∧ p.2 ≠ [] := by decide
    exact ⟨_, r, rfl, fun c hc => Or.inl (scalars_words _ h c hc), (key _ h).2, hr, (key _ h).1, hk⟩
  | name hn hs hm =>
    refine ⟨_, r, rfl, hn.chars, hn.ne, hr, ?_, hk⟩
    intro h
    apply hm
    simp only [List.mem_cons, List.not_mem_nil, or_false] at h ⊢
    rcases h with h | h | h | h
    · exact Or.inl h
    · exact Or.inr (Or.inl h)
    · exact Or.inr (Or.inr (Or.inl h))
    · exact Or.inr (Or.inr (Or.inr (Or.inl h)))
  | @map k v tk tv g1 g2 g3 g4 g5 hk hv h1 h2 h3 h4 h5 =>
    refine ⟨c! "map", g1 ++ (c! "<" ++ (g2 ++ (tk ++ (g3 ++ (c! "," ++ (g4 ++ (tv ++ (g5 ++ (c! ">" ++ r))))))))), ?_, ?_, by decide, ?_,
      by decide, by decide⟩
    · simp only [List.append_assoc]
    · have : ∀ c ∈ c! "map", WordChar c := by decide
      exact fun c hc => Or.inl (this c hc)
    · exact Gap.headP h1 (fun _ => noWord_gap) (Head.cons (by decide))

/-- A type called like a scalar type with something after it. -/
theorem scalarName_bad {m : Bool} {q : Frequency} {o l k w g r : Str} {t : FieldType} (ho : Opening syn o) (hl : LabelText syn m q l)
    (hk : (t, k) ∈ scalars) (hw : ∀ c ∈ w, NameChar c) (hne : w ≠ []) (hg : Gap1 g) :
    readProto (o ++ (l ++ ((k ++ w) ++ (g ++ r)))) = .err := by
  have h1 : ∀ c ∈ k ++ w, NameChar c := by
    intro c hc
    rcases List.mem_append.mp hc with hc | hc
    · exact Or.inl (scalars_words _ hk c hc)
    · exact hw c hc
  have key : ∀ p ∈ scalars, ∀ y ∈ keywords ++ [c! "optional", c! "repeated", c! "required", c! "reserved"], ¬ p.2 <+: y := by decide
  have h2 : ∀ y ∈ keywords ++ [c! "optional", c! "repeated", c! "required", c! "reserved"], k ++ w ≠ y := by
    intro y hy e
    exact key _ hk y hy (e ▸ List.prefix_append k w)
  have hnw : Head NoWord (g ++ r) := Gap1.headP hg fun _ => noWord_gap
  have hf : ∃ fr, opt (terminated frequency gap1) (l ++ ((k ++ w) ++ (g ++ r))) = .ok fr ((k ++ w) ++ (g ++ r)) :=
    label_any hl h1 (by simp [hne]) hnw fun h => h2 _ (List.mem_append.mpr (Or.inr h)) rfl
  obtain ⟨fr, hf⟩ := hf
  refine (field_bad (b := false) ho hl h1 (by simp [hne]) hnw (fun h => h2 _ (List.mem_append.mpr (Or.inl h)) rfl) ?_).eq_err
  have hty : fieldType ((k ++ w) ++ (g ++ r)) = .ok t (w ++ (g ++ r)) := by
    rw [fieldType_eq, List.append_assoc]
    exact alt_scalars scalars_apart (scalar_mem hk)
  have hgap : gap1 (w ++ (g ++ r)) = .err := gap1_err (Head.left hne fun c hc => (hw c (by
    cases w with
    | nil => cases hc
    | cons d ds => cases hc; simp)).stop)
  rw [show messageField syn (l ++ ((k ++ w) ++ (g ++ r))) = .err from
    mapRes_err (pair_err2 hf (pair_err (terminated_err2 hty hgap)))]
  exact .err

/-- A hexadecimal field number. -/
theorem hex_bad {m : Bool} {q : Frequency} {o l ty g1 name g2 g3 r : Str} {t : FieldType} (ho : Opening syn o)
    (hl : LabelText syn m q l) (hty : TypeText t ty) (hk : ty ∉ keywords) (h1 : Gap1 g1) (hn : Word name) (h2 : Gap g2) (h3 : Gap g3) :
    readProto (o ++ (l ++ (ty ++ (g1 ++ (name ++ (g2 ++ (c! "=" ++ (g3 ++ (c! "0x" ++ r))))))))) = .err := by
  obtain ⟨n, x, e, k1, k2, k3, k4, k5⟩ := type_word (r := g1 ++ (name ++ (g2 ++ (c! "=" ++ (g3 ++ (c! "0x" ++ r)))))) hty hk
    (Gap1.headP h1 fun _ => noWord_gap)
  obtain ⟨fr, hf⟩ := label_any hl k1 k2 k3 k4
  rw [e]
  refine (field_bad (b := false) ho hl k1 k2 k3 k5 ?_).eq_err
  rw [← e] at hf ⊢
  have hint : integer (c! "0x" ++ r) = .ok 0 (c! "x" ++ r) :=
    integer_ok (n := 0) (s := c! "0") (r := c! "x" ++ r) (.digit (d := 0) (by decide)) (by decide) (Head.lit (by decide))
  have htail : delimited gap0 (many0 keyVal) (pair gap0 (tok (c! ";"))) (c! "x" ++ r) = .err := by
    have hst : Head Stop (c! "x" ++ r) := Head.lit (by decide)
    exact delimited_err3 (gap0_nil hst) (many0_nil (delimited_err (pair_err (tok_lit (by decide) (by decide)))))
      (pair_err2 (gap0_nil hst) (tok_lit (by decide) (by decide)))
  rw [show messageField syn (l ++ (ty ++ (g1 ++ (name ++ (g2 ++ (c! "=" ++ (g3 ++ (c! "0x" ++ r)))))))) = .err from
    mapRes_err (pair_err2 hf (pair_err2 (terminated_ok (type_ok hty (Gap1.headP h1 fun _ => noName_gap))
      (gap1_ok h1 hn.stop)) (pair_err2 (separatedPair_ok
        (word_ok hn (Gap.headP h2 (fun _ => noWord_gap) (Head.lit (by decide))))
        (delimited_ok (gap0_ok h2 (Head.lit (by decide))) (tok_ok _ _) (gap0_ok h3 (Head.lit (by decide))))
        (alt_ok hint)) htail)))]
  exact .err

theorem boolOption_bad {k v : Str} {kvs : List (Str × Str)} (h : kvs.lookup k = some v) (h1 : v ≠ c! "true") (h2 : v ≠ c! "false") :
    boolOption k kvs = .panic := by
  rw [lookup_eq] at h
  obtain ⟨p, hp, hv⟩ := Option.map_eq_some_iff.mp h
  obtain ⟨k', v'⟩ := p
  simp only at hv
  subst hv
  simp only [boolOption, hp, h1, h2, if_false]

/-- An option `packed` or `deprecated` that is neither `true` nor `false`. -/
theorem option_bad {m : Bool} {q : Frequency} {o l ty g1 name g2 g3 num g4 opts g5 r k v : Str} {t : FieldType} {n : Nat}
    {kvs : List (Str × Str)} (ho : Opening syn o)
    (hl : LabelText syn m q l) (hty : TypeText t ty) (hk : ty ∉ keywords) (h1 : Gap1 g1) (hn : Word name) (h2 : Gap g2) (h3 : Gap g3)
    (hnum : Decimal n num) (hlt : n < 2 ^ 31) (h4 : Gap g4) (hopts : OptionsText kvs opts) (h5 : Gap g5)
    (hkey : k = c! "packed" ∨ k = c! "deprecated") (hv : kvs.lookup k = some v) (hv1 : v ≠ c! "true") (hv2 : v ≠ c! "false")
    (hd : kvs.lookup (c! "default") = none) :
    readProto (o ++ (l ++ (ty ++ (g1 ++ (name ++ (g2 ++ (c! "=" ++ (g3 ++ (num ++ (g4 ++ (opts ++ (g5 ++ (c! ";" ++ r))))))))))))) =
      .panic := by
  obtain ⟨n', x, e, k1, k2, k3, k4, k5⟩ := type_word
    (r := g1 ++ (name ++ (g2 ++ (c! "=" ++ (g3 ++ (num ++ (g4 ++ (opts ++ (g5 ++ (c! ";" ++ r)))))))))) hty hk
    (Gap1.headP h1 fun _ => noWord_gap)
  obtain ⟨fr, hf⟩ := label_any hl k1 k2 k3 k4
  rw [e]
  refine (field_bad (b := true) ho hl k1 k2 k3 k5 ?_).eq_panic
  rw [← e] at hf ⊢
  have ho1 : opts.head? = some '[' := by
    cases hopts with
    | nil => cases hv
    | cons => rfl
  obtain ⟨opts', rfl⟩ : ∃ y, opts = '[' :: y := by
    cases opts with
    | nil => cases ho1
    | cons c cs => cases ho1; exact ⟨cs, rfl⟩
  have htail : delimited gap0 (many0 keyVal) (pair gap0 (tok (c! ";"))) (g4 ++ ('[' :: opts' ++ (g5 ++ (c! ";" ++ r)))) = .ok kvs r := by
    have hnb : Head (· ≠ '[') (g5 ++ (c! ";" ++ r)) := Gap.headP h5 (by
        rintro c ((rfl | rfl | rfl | rfl) | rfl) <;> decide) (Head.lit (by decide))
    exact delimited_ok (gap0_ok h4 (Head.cons (by decide))) (options_ok hopts hnb) (pair_ok (gap0_ok h5 (Head.lit (by decide))) (tok_ok _ _))
  have hp : pair (opt (terminated frequency gap1)) (pair (terminated fieldType gap1)
      (pair (separatedPair word (delimited gap0 (tok (c! "=")) gap0) (alt [integer, hexInteger]))
        (delimited gap0 (many0 keyVal) (pair gap0 (tok (c! ";"))))))
      (l ++ (ty ++ (g1 ++ (name ++ (g2 ++ (c! "=" ++ (g3 ++ (num ++ (g4 ++ ('[' :: opts' ++ (g5 ++ (c! ";" ++ r)))))))))))) =
      .ok (fr, t, (name, (n : Int)), kvs) r :=
    pair_ok hf (pair_ok (terminated_ok (type_ok hty (Gap1.headP h1 fun _ => noName_gap))
      (gap1_ok h1 hn.stop)) (pair_ok (separatedPair_ok
        (word_ok hn (Gap.headP h2 (fun _ => noWord_gap) (Head.lit (by decide))))
        (delimited_ok (gap0_ok h2 (Head.lit (by decide))) (tok_ok _ _) (gap0_ok h3 (hnum.headP fun _ => digit_stop)))
        (alt_ok (integer_ok hnum hlt (Gap.headP h4 (fun _ => noDigit_gap) (Head.cons (by decide)))))) htail))
  have hdef : defaultCheck syn t kvs = .ok none [] := by
    rw [lookup_eq, Option.map_eq_none_iff] at hd
    simp only [defaultCheck, hd]
  have hmk : makeField toFrequency syn fr t name (n : Int) kvs = .panic := by
    rcases hkey with rfl | rfl
    · simp only [makeField, hdef, boolOption_bad hv hv1 hv2]
    · simp only [makeField, hdef, boolOption_bad hv hv1 hv2]
      cases hb : boolOption (c! "packed") kvs with
      | ok _ _ => rfl
      | err => exact absurd hb boolOption_ne_err
      | panic => rfl
  have : messageField syn (l ++ (ty ++ (g1 ++ (name ++ (g2 ++ (c! "=" ++ (g3 ++ (num ++ (g4 ++ ('[' :: opts' ++ (g5 ++ (c! ";" ++ r)))))))))))) =
      .panic := by
    simp only [messageField, fieldGeneric, mapRes, Nom.andThen, hp, hmk]
  rw [this]
  exact .panic

end QP.Pbrs.Grammar
