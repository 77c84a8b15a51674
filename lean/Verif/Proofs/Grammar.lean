import Verif.Proofs.Trim
import Verif.Proofs.ParserFuel
/-!
# The parser reads the texts of the grammar
-/

set_option linter.unusedVariables false

namespace QP.Pbrs.Grammar
open Nom Parse

/-! ## Types -/

theorem noPrefix {k n r : Str} (hk : ∀ c ∈ k, WordChar c) (h : ¬ k <+: n) (hr : Head NoWord r) : ¬ k <+: n ++ r := by
  intro hp
  rcases List.prefix_or_prefix_of_prefix hp (List.prefix_append n r) with h1 | ⟨x, rfl⟩
  · exact h h1
  · obtain ⟨y, hy⟩ := hp
    rw [List.append_assoc] at hy
    have hy := List.append_cancel_left hy
    cases x with
    | nil => exact h (by simp)
    | cons d ds =>
      rw [List.cons_append] at hy
      exact hr d (by rw [← hy]; rfl) (hk d (by simp))

/-- A keyword at the beginning of a name that is longer: what follows is no gap. -/
theorem kw_split {k n r : Str} (hk : ∀ c ∈ k, WordChar c) (hn : ∀ c ∈ n, NameChar c) (hne : n ≠ k) (hr : Head NoWord r) :
    tok k (n ++ r) = .err ∨ ∃ x, tok k (n ++ r) = .ok k x ∧ x ≠ [] ∧ Head NameChar x := by
  by_cases hp : k <+: n
  · right
    obtain ⟨x, rfl⟩ := hp
    have hx : x ≠ [] := by rintro rfl; exact hne (by simp)
    refine ⟨x ++ r, ?_, by simp [hx], Head.left hx fun c hc => hn c ?_⟩
    · rw [List.append_assoc]; exact tok_ok _ _
    · cases x with
      | nil => cases hc
      | cons d ds => cases hc; simp
  · exact Or.inl (tok_err (noPrefix hk hp hr))

theorem alt_scalars {L : List (FieldType × Str)} {tl : List (Parser FieldType)} {t : FieldType} {k r : Str}
    (hL : L.Pairwise fun a b => ¬ a.2 <+: b.2 ∧ ¬ b.2 <+: a.2) (h : (t, k) ∈ L) :
    alt (L.map (fun p => value p.1 (tok p.2)) ++ tl) (k ++ r) = .ok t r := by
  induction L with
  | nil => cases h
  | cons p L ih =>
    rcases List.mem_cons.mp h with rfl | h
    · exact alt_ok (value_ok (tok_ok _ _))
    · have hp := List.pairwise_cons.mp hL
      have h1 := hp.1 _ h
      rw [List.map_cons, List.cons_append, alt_err (value_err (tok_lit h1.1 h1.2))]
      exact ih hp.2 h

theorem alt_skip {L : List (FieldType × Str)} {tl : List (Parser FieldType)} {s : Str} (h : ∀ p ∈ L, ¬ p.2 <+: s) :
    alt (L.map (fun p => value p.1 (tok p.2)) ++ tl) s = alt tl s := by
  induction L with
  | nil => rfl
  | cons p L ih =>
    rw [List.map_cons, List.cons_append, alt_err (value_err (tok_err (h p (by simp))))]
    exact ih fun q hq => h q (by simp [hq])

theorem scalar_mem {t : FieldType} {k : Str} (h : (t, k) ∈ scalars) : (t, k) ∈ scalarTypes := by
  have key : ∀ p ∈ scalars, p ∈ scalarTypes := by decide
  exact key _ h

theorem scalar_mem' {p : FieldType × Str} (h : p ∈ scalarTypes) : p ∈ scalars := by
  have key : ∀ p ∈ scalarTypes, p ∈ scalars := by decide
  exact key _ h

theorem scalars_words : ∀ p ∈ scalars, ∀ c ∈ p.2, WordChar c := by decide

theorem scalars_apart : scalarTypes.Pairwise fun a b => ¬ a.2 <+: b.2 ∧ ¬ b.2 <+: a.2 := by decide

theorem name_type_ok {n r : Str} (hn : Name n) (hs : ∀ p ∈ scalars, ¬ p.2 <+: n) (hm : n ≠ c! "map") (hr : Head NoName r) :
    fieldType (n ++ r) = .ok (.messageOrEnum n) r := by
  have hw : Head NoWord r := hr.mono fun _ hc => hc.1
  rw [fieldType_eq, alt_skip fun p hp => noPrefix (scalars_words p (scalar_mem' hp)) (hs p (scalar_mem' hp)) hw, alt_err, alt_ok]
  · exact map_ok (name_ok hn hr)
  · refine map_err (delimited_err ?_)
    rcases kw_split (k := c! "map") (by decide) hn.chars hm hw with h | ⟨x, h, hx, hx2⟩
    · exact pair_err h
    · refine pair_err2 h (pair_err2 (gap0_nil (hx2.mono fun _ hc => hc.stop)) (pair_err (tok_head fun hc => ?_)))
      have := hx2 _ hc
      rcases this with h | h
      · revert h; decide
      · revert h; decide

theorem type_ok {t : FieldType} {ty : Str} (h : TypeText t ty) : ∀ {r : Str}, Head NoName r → fieldType (ty ++ r) = .ok t r := by
  induction h with
  | scalar h =>
    intro r hr
    rw [fieldType_eq]
    exact alt_scalars scalars_apart (scalar_mem h)
  | name hn hs hm =>
    intro r hr
    exact name_type_ok hn hs (fun e => hm (by simp [e])) hr
  | @map k v tk tv g1 g2 g3 g4 g5 hk hv h1 h2 h3 h4 h5 ihk ihv =>
    intro r hr
    have e : c! "map" ++ g1 ++ c! "<" ++ g2 ++ tk ++ g3 ++ c! "," ++ g4 ++ tv ++ g5 ++ c! ">" ++ r =
      c! "map" ++ (g1 ++ (c! "<" ++ (g2 ++ (tk ++ (g3 ++ (c! "," ++ (g4 ++ (tv ++ (g5 ++ (c! ">" ++ r)))))))))) := by
      simp only [List.append_assoc]
    have hstop : ∀ {t : FieldType} {ty x : Str}, TypeText t ty → Head Stop (ty ++ x) := by
      intro t ty x ht
      cases ht with
      | scalar h =>
        have key : ∀ p ∈ scalars, p.2 ≠ [] ∧ Head Stop p.2 := by
          have : ∀ p ∈ scalars, p.2 ≠ [] ∧ ∀ c ∈ p.2.head?, Stop c := by decide
          exact fun p hp => ⟨(this p hp).1, fun c hc => (this p hp).2 c hc⟩
        exact Head.left (key _ h).1 (key _ h).2
      | name hn _ _ => exact hn.stop
      | map _ _ _ _ _ _ _ => exact Head.cons (by decide)
    rw [e, fieldType_eq, alt_skip, alt_ok]
    · refine map_ok (delimited_ok (pair_ok (tok_ok _ _) (pair_ok (gap0_ok h1 (Head.cons (by decide))) (pair_ok (tok_ok _ _)
        (gap0_ok h2 (hstop hk))))) (separatedPair_ok (ihk (Gap.headP h3 (fun _ => noName_gap) (Head.cons (by decide))))
        (delimited_ok (gap0_ok h3 (Head.cons (by decide))) (tok_ok _ _) (gap0_ok h4 (hstop hv)))
        (ihv (Gap.headP h5 (fun _ => noName_gap) (Head.cons (by decide)))))
        (pair_ok (gap0_ok h5 (Head.cons (by decide))) (tok_ok _ _)))
    · have key : ∀ p ∈ scalarTypes, ¬ p.2 <+: c! "map" ∧ ¬ c! "map" <+: p.2 := by decide
      intro p hp hpre
      rcases List.prefix_or_prefix_of_prefix hpre (List.prefix_append (c! "map") _) with h | h
      · exact (key p hp).1 h
      · exact (key p hp).2 h

/-- How a type begins. -/
theorem type_first {t : FieldType} {ty r : Str} (h : TypeText t ty) (hr : Head NoWord r) :
    ∃ n x, ty ++ r = n ++ x ∧ (∀ c ∈ n, NameChar c) ∧ Head NoWord x ∧
      n ∉ [c! "optional", c! "repeated", c! "required", c! "reserved"] ∧ n ≠ [] := by
  cases h with
  | scalar h =>
    have key : ∀ p ∈ scalars, p.2 ∉ [c! "optional", c! "repeated", c! "required", c! "reserved"] ∧ p.2 ≠ [] := by decide
    exact ⟨_, r, rfl, fun c hc => Or.inl (scalars_words _ h c hc), hr, (key _ h).1, (key _ h).2⟩
  | name hn hs hm =>
    refine ⟨_, r, rfl, hn.chars, hr, ?_, hn.ne⟩
    intro h
    apply hm
    simp only [List.mem_cons, List.not_mem_nil, or_false] at h ⊢
    rcases h with h | h | h | h
    · exact Or.inl h
    · exact Or.inr (Or.inl h)
    · exact Or.inr (Or.inr (Or.inl h))
    · exact Or.inr (Or.inr (Or.inr (Or.inl h)))
  | @map k v tk tv g1 g2 g3 g4 g5 hk hv h1 h2 h3 h4 h5 =>
    refine ⟨c! "map", g1 ++ (c! "<" ++ (g2 ++ (tk ++ (g3 ++ (c! "," ++ (g4 ++ (tv ++ (g5 ++ (c! ">" ++ r))))))))), ?_, ?_, ?_,
      by decide, by decide⟩
    · simp only [List.append_assoc]
    · have : ∀ c ∈ c! "map", WordChar c := by decide
      exact fun c hc => Or.inl (this c hc)
    · exact Gap.headP h1 (fun _ => noWord_gap) (Head.cons (by decide))

theorem type_stop {t : FieldType} {ty x : Str} (h : TypeText t ty) (hx : Head NoWord x) : Head Stop (ty ++ x) := by
  obtain ⟨n, y, e, h1, _, _, h2⟩ := type_first h hx
  rw [e]
  refine Head.left h2 fun c hc => (h1 c ?_).stop
  cases n with
  | nil => cases hc
  | cons d ds => cases hc; simp

/-! ## Options of fields -/

theorem keyVal_ok {k v g1 g2 g3 b r : Str} (hk : Word k) (hv : Value v) (h1 : Gap g1) (h2 : Gap g2) (h3 : Gap g3)
    (hb : Blanks b) :
    keyVal (c! "[" ++ (g1 ++ (k ++ (g2 ++ (c! "=" ++ (g3 ++ (v ++ (b ++ (c! "]" ++ r))))))))) = .ok (k, v) r := by
  obtain ⟨hv1, ⟨c, hc1, hc2, hc3⟩, hl⟩ := hv
  have hvb : ']' ∉ v ++ b := by
    simp only [List.mem_append, not_or]
    refine ⟨hv1, fun h => ?_⟩
    have := hb _ h
    revert this; decide
  have hne : v ≠ [] := by rintro rfl; cases hc1
  refine delimited_ok (pair_ok (tok_ok _ _) (gap0_ok h1 hk.stop)) (separatedPair_ok
    (word_ok hk (Gap.headP h2 (fun _ => noWord_gap) (Head.cons (by decide))))
    (delimited_ok (gap0_ok h2 (Head.cons (by decide))) (tok_ok _ _) (gap0_ok h3 ?_)) (?_ : _ = Res.ok v (c! "]" ++ r)))
    (tok_ok _ _)
  · refine Head.left hne fun d hd => ?_
    rw [hc1] at hd; cases hd
    exact ⟨visible_not_blank hc2, hc3⟩
  · rw [← List.append_assoc]
    refine (map_ok (takeUntil_char hvb)).trans ?_
    rw [trim_ok ⟨c, hc1, hc2⟩ hl hb]
    rfl

theorem options_ok {kvs : List (Str × Str)} {t r : Str} (h : OptionsText kvs t) (hr : Head (· ≠ '[') r) :
    many0 keyVal (t ++ r) = .ok kvs r := by
  induction h with
  | nil => exact many0_nil (delimited_err (pair_err (tok_head fun hc => hr _ hc rfl)))
  | @cons k v g1 g2 g3 b t kvs hk hv h1 h2 h3 hb _ ih =>
    have e : c! "[" ++ g1 ++ k ++ g2 ++ c! "=" ++ g3 ++ v ++ b ++ c! "]" ++ t ++ r =
      c! "[" ++ (g1 ++ (k ++ (g2 ++ (c! "=" ++ (g3 ++ (v ++ (b ++ (c! "]" ++ (t ++ r))))))))) := by
      simp only [List.append_assoc]
    rw [e]
    refine many0_cons (keyVal_ok hk hv h1 h2 h3 hb) ?_ ih
    simp only [List.length_append, List.length_cons]; omega

theorem options_head {kvs : List (Str × Str)} {t : Str} (h : OptionsText kvs t) :
    t = [] ∨ t.head? = some '[' := by
  cases h with
  | nil => exact Or.inl rfl
  | cons _ _ _ _ _ _ _ => exact Or.inr rfl

theorem lookup_eq {k : Str} {kvs : List (Str × Str)} : kvs.lookup k = (kvs.find? (fun p => p.1 == k)).map (·.2) := by
  induction kvs with
  | nil => rfl
  | cons p kvs ih =>
    by_cases h : p.1 = k
    · subst h
      rw [List.lookup_cons, List.find?_cons]
      simp
    · have h' : (k == p.1) = false := by simpa using Ne.symm h
      have h'' : (p.1 == k) = false := by simpa using h
      rw [List.lookup_cons, h', List.find?_cons, h'']
      exact ih

theorem boolOption_some {k : Str} {kvs : List (Str × Str)} {b : Bool} (h : kvs.lookup k = some (boolText b)) :
    boolOption k kvs = .ok (some b) [] := by
  rw [lookup_eq] at h
  obtain ⟨p, hp, hv⟩ := Option.map_eq_some_iff.mp h
  obtain ⟨k', v⟩ := p
  simp only at hv
  subst hv
  simp only [boolOption, hp]
  cases b <;> rfl

theorem boolOption_none {k : Str} {kvs : List (Str × Str)} (h : kvs.lookup k = none) : boolOption k kvs = .ok none [] := by
  rw [lookup_eq, Option.map_eq_none_iff] at h
  simp only [boolOption, h]

theorem quoted_ok {d v : Str} (h : Quoted d v) : alt [delimited (tok (c! "\"")) (takeUntil (c! "\"")) (tok (c! "\"")),
      delimited (tok (c! "'")) (takeUntil (c! "'")) (tok (c! "'"))] v = .ok d [] := by
  rcases h with ⟨rfl, h⟩ | ⟨rfl, h⟩
  · rw [List.append_assoc]
    refine alt_ok (delimited_ok (tok_ok _ _) (takeUntil_char h) (tok_ok (c! "\"") []))
  · rw [List.append_assoc, alt_err (delimited_err (tok_lit (by decide) (by decide)))]
    exact alt_ok (delimited_ok (tok_ok _ _) (takeUntil_char h) (tok_ok (c! "'") []))

theorem makeField_text {ff : Syntax → FieldType → Option FreqToken → Frequency} {syn : Syntax} {fr : Option FreqToken}
    {f : Field} {kvs : List (Str × Str)} (h : HasOptions syn f kvs) (hb : f.boxed = false)
    (hf : ff syn f.typ fr = f.frequency) : makeField ff syn fr f.typ f.name f.number kvs = .ok f [] := by
  have h1 : defaultCheck syn f.typ kvs = .ok f.default [] := by
    rcases h.default with ⟨h1, h2⟩ | ⟨v, d, h1, h2, h3⟩
    · rw [lookup_eq, Option.map_eq_none_iff] at h1
      simp only [defaultCheck, h1, h2]
    · rw [lookup_eq] at h1
      obtain ⟨p, hp, hv⟩ := Option.map_eq_some_iff.mp h1
      obtain ⟨k', v'⟩ := p
      simp only at hv
      subst hv
      simp only [defaultCheck, hp, h2]
      split
      · rename_i e1
        rw [if_pos ⟨rfl, Or.inl e1⟩] at h3
        rw [quoted_ok h3]
      · rename_i e1
        rw [if_pos ⟨rfl, Or.inr e1⟩] at h3
        rw [quoted_ok h3]
      · rename_i n1 n2
        rw [if_neg] at h3
        · rw [h3]
        · rintro ⟨rfl, e | e⟩
          · exact n1 rfl e
          · exact n2 rfl e
  have h2 : boolOption (c! "packed") kvs = .ok f.packed [] := by
    cases hp : f.packed with
    | none => exact boolOption_none (by rw [h.packed, hp]; rfl)
    | some b => exact boolOption_some (by rw [h.packed, hp]; rfl)
  have h3 : ∃ o, boolOption (c! "deprecated") kvs = .ok o [] ∧ o.getD false = f.deprecated := by
    rcases h.deprecated with h3 | ⟨h3, h4⟩
    · exact ⟨_, boolOption_some h3, rfl⟩
    · exact ⟨_, boolOption_none h3, h4.symm⟩
  obtain ⟨o, h3, h4⟩ := h3
  simp only [makeField, h1, h2, h3, h4, hf]
  cases f
  simp only at hb
  subst hb
  rfl

/-! ## Fields -/

theorem digit_stop {c : Char} (h : c.isDigit = true) : Stop c := (digit_wordChar h).stop

theorem unlabelled_ok {ff : Syntax → FieldType → Option FreqToken → Frequency} {syn : Syntax} {f : Field} {s t r : Str}
    {fr : Option FreqToken} (h : UnlabelledText syn f t) (hl : opt (terminated frequency gap1) s = .ok fr (t ++ r))
    (hf : ff syn f.typ fr = f.frequency) : fieldGeneric ff syn s = .ok f r := by
  cases h with
  | @mk n kvs ty g1 g2 g3 num g4 opts g5 hty h1 hname h2 h3 hnum hn hlt h4 hopts hhas h5 hb =>
    have e : ty ++ g1 ++ f.name ++ g2 ++ c! "=" ++ g3 ++ num ++ g4 ++ opts ++ g5 ++ c! ";" ++ r =
      ty ++ (g1 ++ (f.name ++ (g2 ++ (c! "=" ++ (g3 ++ (num ++ (g4 ++ (opts ++ (g5 ++ (c! ";" ++ r)))))))))) := by
      simp only [List.append_assoc]
    rw [e] at hl
    have hsemi : Head Stop (c! ";" ++ r) := Head.cons (by decide)
    have hopt : Head NoDigit (opts ++ (g5 ++ (c! ";" ++ r))) := by
      rcases options_head hopts with h | h
      · rw [h, List.nil_append]; exact Gap.headP h5 (fun _ => noDigit_gap) (Head.cons (by decide))
      · cases opts with
        | nil => cases h
        | cons c cs => cases h; exact Head.cons (by decide)
    have htail : delimited gap0 (many0 keyVal) (pair gap0 (tok (c! ";"))) (g4 ++ (opts ++ (g5 ++ (c! ";" ++ r)))) =
        .ok kvs r := by
      have hnb : Head (· ≠ '[') (g5 ++ (c! ";" ++ r)) := Gap.headP h5 (by
        rintro c ((rfl | rfl | rfl | rfl) | rfl) <;> decide) (Head.cons (by decide))
      rcases options_head hopts with ho | ho
      · subst ho
        have hk : kvs = [] := by
          cases hopts with
          | nil => rfl
        subst hk
        rw [List.nil_append, ← List.append_assoc]
        exact delimited_ok (gap0_ok (h4.append h5) hsemi) (options_ok (t := []) (r := c! ";" ++ r) .nil
          (Head.cons (by decide))) (pair_ok (gap0_nil hsemi) (tok_ok _ _))
      · refine delimited_ok (gap0_ok h4 ?_) (options_ok hopts hnb) (pair_ok (gap0_ok h5 hsemi) (tok_ok _ _))
        cases opts with
        | nil => cases ho
        | cons c cs => cases ho; exact Head.cons (by decide)
    refine mapRes_ok (t := []) (pair_ok hl (pair_ok (terminated_ok (type_ok hty (Gap1.headP h1 fun _ => noName_gap))
      (gap1_ok h1 hname.stop)) (pair_ok (separatedPair_ok
        (word_ok hname (Gap.headP h2 (fun _ => noWord_gap) (Head.cons (by decide))))
        (delimited_ok (gap0_ok h2 (Head.cons (by decide))) (tok_ok _ _)
          (gap0_ok h3 (hnum.headP fun _ => digit_stop)))
        (alt_ok (integer_ok hnum hlt (Gap.headP h4 (fun _ => noDigit_gap) hopt))))
      htail))) ?_
    simp only
    rw [← hn]
    exact makeField_text hhas hb hf

/-- How a field begins. -/
theorem unlabelled_first {syn : Syntax} {f : Field} {t : Str} (h : UnlabelledText syn f t) (r : Str) :
    ∃ n x, t ++ r = n ++ x ∧ (∀ c ∈ n, NameChar c) ∧ Head NoWord x ∧
      n ∉ [c! "optional", c! "repeated", c! "required", c! "reserved"] ∧ n ≠ [] := by
  cases h with
  | @mk n kvs ty g1 g2 g3 num g4 opts g5 hty h1 hname h2 h3 hnum hn hlt h4 hopts hhas h5 hb =>
    have e : ty ++ g1 ++ f.name ++ g2 ++ c! "=" ++ g3 ++ num ++ g4 ++ opts ++ g5 ++ c! ";" ++ r =
      ty ++ (g1 ++ (f.name ++ (g2 ++ (c! "=" ++ (g3 ++ (num ++ (g4 ++ (opts ++ (g5 ++ (c! ";" ++ r)))))))))) := by
      simp only [List.append_assoc]
    rw [e]
    exact type_first hty (Gap1.headP h1 fun _ => noWord_gap)

theorem unlabelled_stop {syn : Syntax} {f : Field} {t : Str} (h : UnlabelledText syn f t) (r : Str) : Head Stop (t ++ r) := by
  obtain ⟨n, x, e, h1, _, _, h2⟩ := unlabelled_first h r
  rw [e]
  refine Head.left h2 fun c hc => (h1 c ?_).stop
  cases n with
  | nil => cases hc
  | cons d ds => cases hc; simp

/-- No label. -/
theorem noLabel {n x : Str} (h1 : ∀ c ∈ n, NameChar c) (h2 : Head NoWord x)
    (h3 : n ∉ [c! "optional", c! "repeated", c! "required", c! "reserved"]) :
    opt (terminated frequency gap1) (n ++ x) = .ok none (n ++ x) := by
  simp only [List.mem_cons, List.not_mem_nil, or_false, not_or] at h3
  refine opt_err ?_
  have kw : ∀ k, (∀ c ∈ k, WordChar c) → n ≠ k → tok k (n ++ x) = .err ∨ ∃ y, tok k (n ++ x) = .ok k y ∧ gap1 y = .err := by
    intro k hk hne
    rcases kw_split hk h1 hne h2 with h | ⟨y, hy, hyne, hy2⟩
    · exact Or.inl h
    · exact Or.inr ⟨y, hy, gap1_name hyne hy2⟩
  rcases kw (c! "optional") (by decide) h3.1 with ho | ⟨y, ho, hg⟩
  · rcases kw (c! "repeated") (by decide) h3.2.1 with hp | ⟨y, hp, hg⟩
    · rcases kw (c! "required") (by decide) h3.2.2.1 with hq | ⟨y, hq, hg⟩
      · refine terminated_err ?_
        rw [frequency, alt_err (value_err ho), alt_err (value_err hp), alt_err (value_err hq), alt_nil]
      · refine terminated_err2 (a := .required) ?_ hg
        rw [frequency, alt_err (value_err ho), alt_err (value_err hp), alt_ok (value_ok hq)]
    · refine terminated_err2 (a := .repeated) ?_ hg
      rw [frequency, alt_err (value_err ho), alt_ok (value_ok hp)]
  · exact terminated_err2 (a := .optional) (alt_ok (value_ok ho)) hg

theorem label_ok {syn : Syntax} {f : Field} {l t r : Str} (hl : LabelText syn f.typ.isMap f.frequency l)
    (ht : UnlabelledText syn f t) :
    ∃ fr, opt (terminated frequency gap1) (l ++ (t ++ r)) = .ok fr (t ++ r) ∧ toFrequency syn f.typ fr = f.frequency := by
  obtain ⟨n, x, e, h1, h2, h3, h4⟩ := unlabelled_first ht r
  have hno : opt (terminated frequency gap1) ([] ++ (t ++ r)) = .ok none (t ++ r) := by
    rw [List.nil_append, e]; exact noLabel h1 h2 h3
  have hstop := unlabelled_stop ht r
  have ho : ∀ g, Gap1 g → opt (terminated frequency gap1) (c! "optional" ++ g ++ (t ++ r)) = .ok (some .optional) (t ++ r) := by
    intro g hg
    rw [List.append_assoc]
    exact opt_ok (terminated_ok (alt_ok (value_ok (tok_ok _ _))) (gap1_ok hg hstop))
  have hp : ∀ g, Gap1 g → opt (terminated frequency gap1) (c! "repeated" ++ g ++ (t ++ r)) = .ok (some .repeated) (t ++ r) := by
    intro g hg
    rw [List.append_assoc]
    refine opt_ok (terminated_ok (r := g ++ (t ++ r)) ?_ (gap1_ok hg hstop))
    rw [frequency, alt_err (value_err (tok_lit (by decide) (by decide)))]
    exact alt_ok (value_ok (tok_ok _ _))
  have hq : ∀ g, Gap1 g → opt (terminated frequency gap1) (c! "required" ++ g ++ (t ++ r)) = .ok (some .required) (t ++ r) := by
    intro g hg
    rw [List.append_assoc]
    refine opt_ok (terminated_ok (r := g ++ (t ++ r)) ?_ (gap1_ok hg hstop))
    rw [frequency, alt_err (value_err (tok_lit (by decide) (by decide))),
      alt_err (value_err (tok_lit (by decide) (by decide)))]
    exact alt_ok (value_ok (tok_ok _ _))
  generalize hm : f.typ.isMap = b at hl
  generalize hfq : f.frequency = q at hl
  have nomap : f.typ.isMap = false → ∀ k v, f.typ ≠ .map k v := by
    intro h k v e; rw [e] at h; cases h
  have ismap : f.typ.isMap = true → ∃ k v, f.typ = .map k v := by
    intro h
    cases hf : f.typ <;> rw [hf] at h <;> first | exact ⟨_, _, rfl⟩ | cases h
  have tf : ∀ syn fr, b = false → toFrequency syn f.typ fr = (match syn, fr with
      | .proto2, some .required => .p2required | .proto2, some .optional => .p2optional
      | .proto2, some .repeated => .p2repeated | .proto2, none => .p2optional
      | .proto3, some .required => .p3optional | .proto3, some .optional => .p3optional
      | .proto3, some .repeated => .p3repeated | .proto3, none => .p3default) := by
    intro syn fr hb
    rw [hb] at hm
    cases hf : f.typ <;> first | exact absurd hf (nomap (by assumption) _ _) | (cases syn <;> rcases fr with _ | ⟨⟨⟩⟩ <;> rfl)
  cases hl with
  | optional2 hg => exact ⟨_, ho _ hg, tf _ _ rfl⟩
  | required2 hg => exact ⟨_, hq _ hg, tf _ _ rfl⟩
  | repeated2 hg => exact ⟨_, hp _ hg, tf _ _ rfl⟩
  | none2 => exact ⟨_, hno, tf _ _ rfl⟩
  | map2 => obtain ⟨k, v, e⟩ := ismap hm; exact ⟨_, hno, by rw [e]; rfl⟩
  | optional3 hg => exact ⟨_, ho _ hg, tf _ _ rfl⟩
  | repeated3 hg => exact ⟨_, hp _ hg, tf _ _ rfl⟩
  | none3 => exact ⟨_, hno, tf _ _ rfl⟩
  | map3 => obtain ⟨k, v, e⟩ := ismap hm; exact ⟨_, hno, by rw [e]; rfl⟩

theorem field_ok {syn : Syntax} {f : Field} {t r : Str} (h : FieldText syn f t) : messageField syn (t ++ r) = .ok f r := by
  obtain ⟨l, u, rfl, h1, h2⟩ := h
  obtain ⟨fr, h3, h4⟩ := label_ok (r := r) h1 h2
  rw [List.append_assoc]
  exact unlabelled_ok h2 h3 h4

theorem oneofField_ok {syn : Syntax} {f : Field} {t r : Str} (h : OneofFieldText syn f t) :
    oneofMessageField syn (t ++ r) = .ok f r := by
  obtain ⟨h1, h2⟩ := h
  obtain ⟨n, x, e, h3, h4, h5, h6⟩ := unlabelled_first h2 r
  refine unlabelled_ok (fr := none) h2 ?_ ?_
  · rw [e]; exact noLabel h3 h4 h5
  · rw [h1]; rfl

/-- How a field begins, with its label. -/
theorem field_first {syn : Syntax} {f : Field} {t : Str} (h : FieldText syn f t) (r : Str) :
    ∃ n x, t ++ r = n ++ x ∧ (∀ c ∈ n, NameChar c) ∧ Head NoWord x ∧ n ≠ c! "reserved" ∧ n ≠ [] := by
  obtain ⟨l, u, rfl, h1, h2⟩ := h
  have lab : ∀ k g, Gap1 g → (∀ c ∈ k, WordChar c) → k ≠ c! "reserved" → k ≠ [] →
      ∃ n x, k ++ g ++ u ++ r = n ++ x ∧ (∀ c ∈ n, NameChar c) ∧ Head NoWord x ∧ n ≠ c! "reserved" ∧ n ≠ [] :=
    fun k g hg hk hne hne2 => ⟨k, g ++ (u ++ r), by simp only [List.append_assoc], fun c hc => Or.inl (hk c hc),
      Gap1.headP hg fun _ => noWord_gap, hne, hne2⟩
  have nol : ∃ n x, [] ++ u ++ r = n ++ x ∧ (∀ c ∈ n, NameChar c) ∧ Head NoWord x ∧ n ≠ c! "reserved" ∧ n ≠ [] := by
    obtain ⟨n, x, e, h3, h4, h5, h6⟩ := unlabelled_first h2 r
    exact ⟨n, x, e, h3, h4, fun e => h5 (by simp [e]), h6⟩
  generalize f.typ.isMap = b at h1
  generalize f.frequency = q at h1
  cases h1 with
  | optional2 hg => exact lab _ _ hg (by decide) (by decide) (by decide)
  | required2 hg => exact lab _ _ hg (by decide) (by decide) (by decide)
  | repeated2 hg => exact lab _ _ hg (by decide) (by decide) (by decide)
  | none2 => exact nol
  | map2 => exact nol
  | optional3 hg => exact lab _ _ hg (by decide) (by decide) (by decide)
  | repeated3 hg => exact lab _ _ hg (by decide) (by decide) (by decide)
  | none3 => exact nol
  | map3 => exact nol

theorem field_stop {syn : Syntax} {f : Field} {t : Str} (h : FieldText syn f t) (r : Str) : Head Stop (t ++ r) := by
  obtain ⟨n, x, e, h1, _, _, h2⟩ := field_first h r
  rw [e]
  refine Head.left h2 fun c hc => (h1 c ?_).stop
  cases n with
  | nil => cases hc
  | cons d ds => cases hc; simp

/-- A keyword, a gap, and something that is not a name, `=` and a number: no field. -/
theorem field_kw_err {ff : Syntax → FieldType → Option FreqToken → Frequency} {syn : Syntax} {k g x : Str} (hk : Name k)
    (hs : ∀ p ∈ scalars, ¬ p.2 <+: k)
    (hm : k ∉ [c! "optional", c! "repeated", c! "required", c! "reserved"]) (hm2 : k ≠ c! "map") (hg : Gap1 g)
    (hx : Head Stop x)
    (h : separatedPair word (delimited gap0 (tok (c! "=")) gap0) (alt [integer, hexInteger]) x = .err) :
    fieldGeneric ff syn (k ++ (g ++ x)) = .err := by
  refine mapRes_err (pair_err2 (noLabel hk.chars (Gap1.headP hg fun _ => noWord_gap) hm) (pair_err2 (terminated_ok
    (name_type_ok hk hs hm2 (Gap1.headP hg fun _ => noName_gap)) (gap1_ok hg hx)) (pair_err h)))

/-- Things with gaps around them, followed by something else. -/
theorem many_aux {α : Type} {T : α → Str → Prop} {p : Parser α} {g r : Str} (hp : ∀ a t r, T a t → p (t ++ r) = .ok a r)
    (hs : ∀ a t r, T a t → Head Stop (t ++ r)) (hr : Head Stop r) (he : p r = .err) (hg : Gap g)
    {as : List α} {b : Str} (h : ManyText T as b) (hne : as ≠ []) :
    ∃ a as' u g' b', as = a :: as' ∧ b = g' ++ b' ∧ Gap g' ∧ Head Stop (b' ++ (g ++ r)) ∧
      delimited gap0 p gap0 (b' ++ (g ++ r)) = .ok a u ∧ u.length < (b' ++ (g ++ r)).length ∧
      many0 (delimited gap0 p gap0) u = .ok as' r := by
  have hend : many0 (delimited gap0 p gap0) r = .ok [] r := many0_nil (delimited_err2 (gap0_nil hr) he)
  have hpos : ∀ {a : α} {t : Str}, T a t → 0 < t.length := by
    intro a t ht
    refine List.length_pos_iff.mpr ?_
    rintro rfl
    have h1 := hp a [] r ht
    rw [List.nil_append, he] at h1
    cases h1
  induction h with
  | nil => exact absurd rfl hne
  | @cons a as g' t s hg' ht hs' ih =>
    have e : t ++ s ++ (g ++ r) = t ++ (s ++ (g ++ r)) := by simp only [List.append_assoc]
    cases hs' with
    | nil =>
      refine ⟨a, [], r, g', t ++ [], rfl, by simp, hg', ?_, ?_, ?_, hend⟩
      · rw [e]; exact hs a t _ ht
      · rw [e]; exact delimited_ok (gap0_nil (hs a t _ ht)) (hp a t _ ht) (gap0_ok hg hr)
      · have := hpos ht
        simp only [List.length_append]; omega
    | @cons a2 as2 g2 t2 s2 hg2 ht2 hs2 =>
      obtain ⟨a3, as3, u, g3, b3, e3, e4, h0, h1, h2, h3, h4⟩ := ih (by simp)
      cases e3
      refine ⟨a, a2 :: as2, b3 ++ (g ++ r), g', t ++ (g2 ++ t2 ++ s2), rfl, by simp only [List.append_assoc], hg', ?_, ?_, ?_,
        many0_cons h2 h3 h4⟩
      · rw [e]; exact hs a t _ ht
      · rw [e]
        refine delimited_ok (gap0_nil (hs a t _ ht)) (hp a t _ ht) (c := ()) ?_
        rw [e4, List.append_assoc]
        exact gap0_ok h0 h1
      · have := hpos ht
        rw [e4]
        simp only [List.length_append]; omega

theorem many_ok {α : Type} {T : α → Str → Prop} {p : Parser α} {g r : Str} (hp : ∀ a t r, T a t → p (t ++ r) = .ok a r)
    (hs : ∀ a t r, T a t → Head Stop (t ++ r)) (hr : Head Stop r) (he : p r = .err) (hg : Gap g)
    {as : List α} {b : Str} (h : ManyText T as b) (hne : as ≠ []) :
    many1 (delimited gap0 p gap0) (b ++ (g ++ r)) = .ok as r ∧ many0 (delimited gap0 p gap0) (b ++ (g ++ r)) = .ok as r := by
  obtain ⟨a, as', u, g', b', rfl, rfl, h1, h2, h3, h4, h5⟩ := many_aux hp hs hr he hg h hne
  have h6 : delimited gap0 p gap0 (g' ++ b' ++ (g ++ r)) = .ok a u := by
    rw [List.append_assoc]
    simp only [delimited] at h3 ⊢
    rw [preceded_ok (gap0_nil h2)] at h3
    rw [preceded_ok (gap0_ok h1 h2), h3]
  refine ⟨many1_ok h6 h5, many0_cons h6 ?_ h5⟩
  simp only [List.length_append] at h4 ⊢; omega

end QP.Pbrs.Grammar
