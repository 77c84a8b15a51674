import Verif.Proofs.Reject
/-!
# Enums the parser rejects
-/

set_option linter.unusedVariables false

namespace QP.Pbrs.Grammar
open Nom Parse

variable {syn : Syntax}

/-- What the events of the file come to. -/
theorem events_bad' {b : Bool} {F : File} {s g y : Str} (hs : StatementsText syn F s) (hg : Gap g) (hne : y ≠ []) (hh : Head NameChar y)
    (hb : Bad b (fileEvent syn y)) :
    if b then many0 (fileEvent syn) (s ++ (g ++ y)) = .panic
    else ∃ evs, many0 (fileEvent syn) (s ++ (g ++ y)) = .ok evs y := by
  have hst : Head Stop y := hh.mono fun _ hc => hc.stop
  have hc : Clean (g ++ y) := by
    have := name_clean (r := []) hne hh hg
    rwa [List.append_nil] at this
  cases b
  · simp only [Bool.false_eq_true, if_false]
    rcases many_end (p := fileEvent syn) (x := y) hg (fun hg => fe_gap hg hst) hb.eq_err with h | h
    · obtain ⟨evs, h, _⟩ := (statements_ok hs).1.2.1 hc h; exact ⟨evs, h⟩
    · obtain ⟨evs, h, _⟩ := (statements_ok hs).1.2.1 hc h; exact ⟨evs, h⟩
  · simp only [if_true]
    refine (statements_ok hs).1.2.2 hc ?_
    have hb0 : many0 (fileEvent syn) y = .panic := by rw [many0_eq]; simp only [hb.eq_panic]
    by_cases hge : g = []
    · subst hge; exact hb0
    · refine many0_panic (fe_gap ⟨hg, hge⟩ hst) ?_ hb0
      have := List.length_pos_iff.mpr hge
      simp only [List.length_append]; omega

/-- The beginning of a file, and something that cannot be read. -/
theorem start_bad {b : Bool} {o y : Str} (ho : Start syn o) (hne : y ≠ []) (hh : Head NameChar y) (h1 : Bad b (fileEvent syn y)) (h2 : syntaxP y = .err) :
    Bad b (readProto (o ++ y)) := by
  cases ho with
  | @default F s g hs hg =>
    have h3 := events_bad' hs hg hne hh h1
    have e : s ++ g ++ y = s ++ (g ++ y) := by simp only [List.append_assoc]
    have hsyn : syntaxP (s ++ (g ++ y)) = .err := by
      refine (statements_ok hs).1.1 _ ?_
      by_cases hge : g = []
      · subst hge; exact h2
      · exact delimited_err (pair_err (tok_start (Gap1.headP ⟨hg, hge⟩ fun _ => noStart_gap) (by unfold Letter; decide)))
    rw [e]
    cases b
    · obtain ⟨evs, h3⟩ := h3
      simp only [readProto, fileDescriptor, scan_none hsyn]
      rw [map_ok h3]
      simp only
      rw [trim_ne hne hh]
      exact .err
    · simp only [if_true] at h3
      simp only [readProto, fileDescriptor, scan_none hsyn, Nom.map, Nom.andThen, h3]
      exact .panic
  | @stated syn F h s g hst hs hg =>
    have h3 := events_bad' hs hg hne hh h1
    have e : h ++ s ++ g ++ y = h ++ (s ++ (g ++ y)) := by simp only [List.append_assoc]
    have hsyn := syntax_ok (r := s ++ (g ++ y)) hst
    have hrest : s ++ (g ++ y) ≠ [] := by
      simp only [ne_eq, List.append_eq_nil_iff, not_and]
      exact fun _ _ => hne
    have hlen : (s ++ (g ++ y)).length < (h ++ (s ++ (g ++ y))).length := by
      have := syntax_pos hst
      simp only [List.length_append]; omega
    rw [e]
    cases b
    · obtain ⟨evs, h3⟩ := h3
      have h4 := many0_cons (fe_syntax hsyn) hlen h3
      simp only [readProto, fileDescriptor, scan_stated hsyn hrest]
      rw [map_ok h4]
      simp only
      rw [trim_ne hne hh]
      exact .err
    · simp only [if_true] at h3
      have h4 := many0_panic (fe_syntax hsyn) hlen h3
      simp only [readProto, fileDescriptor, scan_stated hsyn hrest, Nom.map, Nom.andThen, h4]
      exact .panic


/-- A value with a negative number. -/
theorem negative_err {name g g' r : Str} (hn : Word name) (hopt : name ≠ c! "option") (hg : Gap g) (hg' : Gap g') :
    enumEvent (name ++ (g ++ (c! "=" ++ (g' ++ (c! "-" ++ r))))) = .err := by
  have h1 : enumField (name ++ (g ++ (c! "=" ++ (g' ++ (c! "-" ++ r))))) = .err := by
    refine terminated_err (separatedPair_err3 (word_ok hn (Gap.headP hg (fun _ => noWord_gap) (Head.lit (by decide))))
      (pair_ok (gap0_ok hg (Head.lit (by decide))) (pair_ok (tok_ok _ _) (gap0_ok hg' (Head.lit (by decide))))) ?_)
    rfl
  have hnw : Head NoWord (g ++ (c! "=" ++ (g' ++ (c! "-" ++ r)))) := Gap.headP hg (fun _ => noWord_gap) (Head.lit (by decide))
  have kw : pair (tok (c! "option")) gap1 (name ++ (g ++ (c! "=" ++ (g' ++ (c! "-" ++ r))))) = .err :=
    kw_err (by decide) (fun c hc => Or.inl (hn.chars c hc)) hopt hnw fun s => gap1_name
  exact (alt_err (map_err h1)).trans ((alt_err (value_err (value_err (delimited_err kw)))).trans
    ((alt_err (value_err (br_err hn.stop))).trans alt_nil))

theorem enum_bad {t name g g' r : Str} (ht : InEnum t) (hn : Word name) (hopt : name ≠ c! "option") (hg : Gap g) (hg' : Gap g') :
    enumerator (t ++ (name ++ (g ++ (c! "=" ++ (g' ++ (c! "-" ++ r)))))) = .err := by
  have hx := negative_err (r := r) hn hopt hg hg'
  generalize hy : name ++ (g ++ (c! "=" ++ (g' ++ (c! "-" ++ r)))) = y at hx
  have hstop : Head Stop y := by rw [← hy]; exact hn.stop
  have hclose : tok (c! "}") y = .err := by
    rw [← hy]
    obtain ⟨c, cs, rfl, hl, _⟩ := hn
    refine tok_head fun h => ?_
    cases h
    revert hl
    unfold Letter
    decide
  cases ht with
  | @mk nm g1 g2 b g3 l h1 hm h2 hb h3 =>
    simp only [List.append_assoc]
    have hbody : ∃ evs, many0 enumEvent (b ++ (g3 ++ y)) = .ok evs y := by
      rcases many_end (p := enumEvent) (x := y) h3 (fun hg => enumEvent_gap hg hstop) hx with h | h
      · obtain ⟨evs, h4, h5⟩ := enumBody_ok hb h
        exact ⟨evs, h4⟩
      · obtain ⟨evs, h4, h5⟩ := enumBody_ok hb h
        exact ⟨evs, h4⟩
    obtain ⟨evs, h4⟩ := hbody
    exact map_err (terminated_err (pair_err2 (delimited_ok (pair_ok (tok_ok _ _) (gap1_ok h1 hm.stop))
      (word_ok hm (Gap.headP h2 (fun _ => noWord_gap) (Head.cons (by decide)))) (gap0_ok h2 (Head.cons (by decide))))
      (delimited_err3 (tok_ok _ _) h4 hclose)))

theorem inEnum_head {t x : Str} (h : InEnum t) : t ++ x ≠ [] ∧ Head NameChar (t ++ x) := by
  cases h
  exact ⟨by simp, Head.cons (Or.inl (by decide))⟩

/-- In a message. -/
theorem ev_enum_bad {t x : Str} (h : InEnum t) (hb : enumerator (t ++ x) = .err) : ev syn (t ++ x) = .err := by
  cases h with
  | mk h1 hm h2 hs h3 =>
    simp only [List.append_assoc] at hb ⊢
    rw [ev_kw (kwWord (by decide) (by decide)) (by decide) (by decide) (by decide) h1 hm.stop (nameBrace_err hm h2)]
    refine (alt_err (map_err ((message_eq ..).trans (map_err (terminated_err (pair_err (delimited_err (pair_err (tok_lit (by decide) (by decide)))))))))).trans ?_
    refine (alt_err (map_err hb)).trans ?_
    exact ((alt_err (map_err (map_err (pair_err (preceded_err (pair_err (tok_lit (by decide) (by decide)))))))).trans
        ((alt_err (map_err (mapRes_err (delimited_err (pair_err (tok_lit (by decide) (by decide))))))).trans
        ((alt_err (value_err (value_err (delimited_err (pair_err (tok_lit (by decide) (by decide))))))).trans
        ((alt_err (value_err (br_err (Head.lit (by decide))))).trans alt_nil))))

/-- In the file. -/
theorem fe_enum_bad {t x : Str} (h : InEnum t) (hb : enumerator (t ++ x) = .err) : fileEvent syn (t ++ x) = .err ∧ syntaxP (t ++ x) = .err := by
  obtain ⟨y, e⟩ : ∃ y, t ++ x = c! "enum" ++ y := by
    cases h; simp only [List.append_assoc]; exact ⟨_, rfl⟩
  rw [e] at hb ⊢
  refine ⟨?_, syntaxP_err (by decide) (by decide)⟩
  rw [show fileEvent syn (c! "enum" ++ y) = alt [Nom.map syntaxP .syntax_, Nom.map importP .import_, Nom.map packageP .package,
    Nom.map (message syn) .message, Nom.map enumerator .enum, Nom.map rpcService .service, Nom.map (extend syn) .extend,
    value .ignore optionIgnore, value .ignore br] (c! "enum" ++ y) from rfl,
    alt_err (map_err (syntaxP_err (by decide) (by decide))), alt_err (map_err (importP_err (by decide) (by decide))),
    alt_err (map_err (packageP_err (by decide) (by decide)))]
  refine (alt_err (map_err ((message_eq ..).trans (map_err (terminated_err (pair_err (delimited_err (pair_err (tok_lit (by decide) (by decide)))))))))).trans ?_
  exact (alt_err (map_err hb)).trans
    ((alt_err (map_err (rpcService_err (by decide) (by decide)))).trans
    ((alt_err (map_err (extend_err (by decide) (by decide)))).trans
    ((alt_err (value_err (value_err (delimited_err (pair_err (tok_lit (by decide) (by decide))))))).trans
    ((alt_err (value_err (br_err (Head.lit (by decide))))).trans alt_nil))))

end QP.Pbrs.Grammar
