import Verif.Model.Pbrs.ModFile
import Verif.Spec.ModFile
/-!
# `mod.rs` files (C59)
-/

set_option linter.unusedVariables false

namespace QP.Pbrs

/-! ## The constants -/

theorem pub_mod_line : '\n' ∉ PUB_MOD := by decide +kernel
theorem pub_mod_ne : PUB_MOD ≠ [] := by decide +kernel
theorem header_line : '\n' ∉ MAGIC_HEADER := by decide +kernel
theorem header_stripCr : stripCr MAGIC_HEADER = MAGIC_HEADER := by decide +kernel
theorem header_header : (afterFirst MAGIC_HEADER MAGIC_HEADER).isSome = true := by decide +kernel
theorem header_pub_mod : afterFirst PUB_MOD MAGIC_HEADER = none := by decide +kernel
theorem header_text : "// Automatically generated mod.rs\n".toList = MAGIC_HEADER ++ ['\n'] := by decide +kernel
theorem line_end_text : ";\n".toList = [';', '\n'] := by decide +kernel

theorem modLine_eq (n : Str) : "pub mod ".toList ++ n ++ ";\n".toList = modLine n := by
  rw [line_end_text]; rfl

theorem modFile_eq (ns : List Str) : modFile ns = MAGIC_HEADER ++ '\n' :: ns.flatMap modLine := by
  unfold modFile
  simp only [modLine_eq]
  rw [header_text, List.append_assoc]
  rfl

theorem modFile_snoc (ns : List Str) (n : Str) : modFile (ns ++ [n]) = modFile ns ++ modLine n := by
  simp only [modFile_eq, List.flatMap_append, List.flatMap_cons, List.flatMap_nil, List.append_nil, List.append_assoc, List.cons_append]

theorem afterFirst_prefix {pat : Str} (h : pat ≠ []) (r : Str) : afterFirst pat (pat ++ r) = some r := by
  cases pat with
  | nil => exact absurd rfl h
  | cons c cs =>
    show (if (c :: cs).isPrefixOf (c :: cs ++ r) then some ((c :: cs ++ r).drop (c :: cs).length) else _) = _
    rw [if_pos (List.isPrefixOf_iff_prefix.mpr (List.prefix_append _ _)), List.drop_left]

/-! ## Lines -/

theorem linesFrom_line (acc l rest : Str) (h : '\n' ∉ l) :
    linesFrom acc (l ++ '\n' :: rest) = stripCr (acc ++ l) :: linesFrom [] rest := by
  induction l generalizing acc with
  | nil => simp [linesFrom]
  | cons c l ih =>
    have hc : c ≠ '\n' := fun e => h (by simp [e])
    have := ih (acc ++ [c]) (fun e => h (by simp [e]))
    simp only [List.append_assoc, List.singleton_append] at this
    simp only [List.cons_append, linesFrom, if_neg hc, this]

theorem linesFrom_append (acc s t : Str) :
    linesFrom acc (s ++ '\n' :: t) = linesFrom acc (s ++ ['\n']) ++ lines t := by
  induction s generalizing acc with
  | nil => simp [linesFrom, lines]
  | cons c s ih =>
    simp only [List.cons_append, linesFrom]
    split
    · rw [ih]; rfl
    · rw [ih]

/-- Text that ends with a line end: its lines, then those of what follows. -/
theorem lines_append (s t : Str) : lines (s ++ '\n' :: t) = lines (s ++ ['\n']) ++ lines t := linesFrom_append [] s t

theorem lines_line (l rest : Str) (h : '\n' ∉ l) : lines (l ++ '\n' :: rest) = stripCr l :: lines rest := by
  have := linesFrom_line [] l rest h
  simpa [lines] using this

theorem modLine_line (n : Str) : modLine n = (PUB_MOD ++ n ++ [';']) ++ ['\n'] := by simp [modLine]

theorem stripCr_semi (l : Str) : stripCr (l ++ [';']) = l ++ [';'] := by simp [stripCr]

theorem lines_modLine {n : Str} (h : '\n' ∉ n) (rest : Str) :
    lines (modLine n ++ rest) = (PUB_MOD ++ n ++ [';']) :: lines rest := by
  have h1 : '\n' ∉ PUB_MOD ++ n ++ [';'] := by
    simp only [List.mem_append, not_or]
    exact ⟨⟨pub_mod_line, h⟩, by decide⟩
  have := lines_line (PUB_MOD ++ n ++ [';']) rest h1
  rw [stripCr_semi] at this
  rw [← this, modLine_line]
  simp

theorem lineRefers_mod (name n : Str) : lineRefers name (PUB_MOD ++ n ++ [';']) = some (n == name) := by
  have : afterFirst PUB_MOD (PUB_MOD ++ n ++ [';']) = some (n ++ [';']) := by
    rw [List.append_assoc]; exact afterFirst_prefix pub_mod_ne _
  unfold lineRefers
  rw [this]
  simp only [List.getLast?_append, List.getLast?_singleton, Option.some_or, List.dropLast_concat]
  exact if_pos (by decide)

theorem scanLines_append (name : Str) (a b : List Str) : scanLines name (a ++ b) =
    match scanLines name a with
    | none => none
    | some true => some true
    | some false => scanLines name b := by
  induction a with
  | nil => rfl
  | cons l a ih =>
    simp only [List.cons_append, scanLines]
    cases lineRefers name l with
    | none => rfl
    | some p =>
      cases p with
      | true => rfl
      | false => exact ih

/-! ## The theorems -/

/-- Whatever the file is, a call leaves it alone or adds one line `pub mod name;` at its end (after the header, if the file
did not exist). -/
theorem C59_append_only (file : Option Str) (name : Str) (file' : Option Str) (h : updateModFile file name = some file') :
    (file = none ∧ file' = some (modFile [name])) ∨
      ∃ text, file = some text ∧ (file' = some text ∨ file' = some (text ++ "pub mod ".toList ++ name ++ ";\n".toList)) := by
  unfold updateModFile at h
  cases file with
  | none =>
    cases h
    refine Or.inl ⟨rfl, ?_⟩
    rw [modFile_eq]
    simp only [List.flatMap_cons, List.flatMap_nil, List.append_nil, List.append_assoc, List.singleton_append]
  | some text =>
    refine Or.inr ⟨text, rfl, ?_⟩
    simp only at h
    split at h
    · cases h
    · cases h; exact Or.inl rfl
    · cases h
      refine Or.inr ?_
      rw [← modLine_eq]
      simp only [List.append_assoc]

theorem afterFirst_infix {pat s r : Str} (h : afterFirst pat s = some r) : pat <:+: s := by
  induction s with
  | nil =>
    simp only [afterFirst] at h
    split at h
    · rename_i hp
      cases pat with
      | nil => exact List.infix_refl _
      | cons _ _ => cases hp
    · cases h
  | cons c cs ih =>
    simp only [afterFirst] at h
    split at h
    · rename_i hp
      exact (List.isPrefixOf_iff_prefix.mp hp).isInfix
    · exact (ih h).trans (List.suffix_cons c cs).isInfix

theorem stripCr_infix (l : Str) : stripCr l <:+: l := by
  unfold stripCr
  split
  · exact (List.dropLast_prefix l).isInfix
  · exact List.infix_refl l

theorem lines_last {l : Str} (hl : '\n' ∉ l) (acc : Str) : linesFrom acc l = if (acc ++ l).isEmpty then [] else [acc ++ l] := by
  induction l generalizing acc with
  | nil => simp [linesFrom]
  | cons c l ih =>
    have hc : c ≠ '\n' := fun e => hl (by simp [e])
    rw [linesFrom, if_neg hc, ih (fun e => hl (by simp [e]))]
    simp

/-- A `mod.rs` with some text whose first line does not contain the generated header is never modified. -/
theorem C59_foreign (text name first rest : Str) (hl : '\n' ∉ first)
    (ht : text = first ++ '\n' :: rest ∨ (text = first ∧ first ≠ []))
    (hf : ¬ "// Automatically generated mod.rs".toList <:+: first) : updateModFile (some text) name = some (some text) := by
  have key : ∀ l ls, l <:+: first → lines text = l :: ls → updateModFile (some text) name = some (some text) := by
    intro l ls hi h
    have : afterFirst MAGIC_HEADER l = none := by
      cases h1 : afterFirst MAGIC_HEADER l with
      | none => rfl
      | some r => exact absurd ((afterFirst_infix h1).trans hi) hf
    simp only [updateModFile, h, isPresent, this, Option.isSome_none, Bool.false_eq_true, if_false]
  rcases ht with ht | ⟨ht, hne⟩
  · exact key (stripCr first) (lines rest) (stripCr_infix first) (by rw [ht, lines_line _ _ hl])
  · refine key first [] (List.infix_refl _) ?_
    rw [ht, lines, lines_last hl]
    simp [hne]

theorem scan_modFile (name : Str) (ns : List Str) (h : ∀ n ∈ ns, '\n' ∉ n) :
    isPresent name (lines (modFile ns)) = some (ns.contains name) := by
  have h0 : lines (modFile ns) = MAGIC_HEADER :: lines (ns.flatMap modLine) := by
    rw [modFile_eq, lines_line MAGIC_HEADER (ns.flatMap modLine) header_line, header_stripCr]
  have h1 : scanLines name (lines (ns.flatMap modLine)) = some (ns.contains name) := by
    clear h0
    induction ns with
    | nil => rfl
    | cons n ns ih =>
      rw [List.flatMap_cons, lines_modLine (h n List.mem_cons_self)]
      simp only [scanLines, lineRefers_mod]
      have ih := ih fun m hm => h m (List.mem_cons_of_mem _ hm)
      cases hn : n == name with
      | true =>
        have : n = name := by simpa using hn
        simp [this]
      | false =>
        have : ¬ name = n := by
          intro e
          rw [e] at hn
          simp at hn
        simp only [ih, List.contains_cons]
        simp [this]
  rw [h0]
  simp only [isPresent]
  rw [if_pos header_header]
  simp only [scanLines]
  rw [show lineRefers name MAGIC_HEADER = some false by unfold lineRefers; rw [header_pub_mod]]
  exact h1

theorem update_modFile (name : Str) (ns : List Str) (h : ∀ n ∈ ns, '\n' ∉ n) :
    updateModFile (some (modFile ns)) name = some (some (if name ∈ ns then modFile ns else modFile (ns ++ [name]))) := by
  unfold updateModFile
  simp only [scan_modFile name ns h]
  cases hc : ns.contains name with
  | true =>
    rw [if_pos (by simpa using hc)]
  | false =>
    rw [if_neg (by simpa using hc), modFile_snoc]

theorem updates_modFile (ms ns : List Str) (h : ∀ n ∈ ns, '\n' ∉ n) (hm : ∀ n ∈ ms, '\n' ∉ n) :
    updateModFiles (some (modFile ns)) ms = some (some (modFile (ns ++ (firstOccurrences ms).filter (fun n => !ns.contains n)))) := by
  induction ms generalizing ns with
  | nil => simp [updateModFiles, firstOccurrences]
  | cons m ms ih =>
    have hm' : ∀ n ∈ ms, '\n' ∉ n := fun n hn => hm n (List.mem_cons_of_mem _ hn)
    simp only [updateModFiles, update_modFile m ns h, Option.bind_some]
    by_cases hmn : m ∈ ns
    · rw [if_pos hmn, ih ns h hm']
      congr 3
      simp only [firstOccurrences, List.filter_cons, List.contains_iff_mem]
      rw [if_neg (by simp [hmn]), List.filter_filter]
      congr 1
      refine List.filter_congr fun n hn => ?_
      by_cases hnn : n ∈ ns
      · simp [hnn]
      · have : n ≠ m := fun e => hnn (e ▸ hmn)
        simp [hnn, this]
    · rw [if_neg hmn, ih (ns ++ [m]) _ hm']
      · congr 3
        simp only [firstOccurrences, List.filter_cons]
        rw [if_pos (by simpa using hmn), List.filter_filter]
        simp only [List.append_assoc, List.singleton_append, List.append_cancel_left_eq, List.cons.injEq, true_and]
        refine List.filter_congr fun n hn => ?_
        simp only [List.contains_eq_mem, List.mem_append, List.mem_singleton]
        by_cases h1 : n ∈ ns <;> by_cases h2 : n = m <;> simp [h1, h2]
      · intro n hn
        rcases List.mem_append.mp hn with h1 | h1
        · exact h n h1
        · rw [List.mem_singleton.mp h1]; exact hm m List.mem_cons_self

/-- The whole history of a `mod.rs` that pb-rs created: after any sequence of calls it has the header and one line per
module, in the order of the first calls. -/
theorem C59_history (n : Str) (ns : List Str) (h : ∀ m ∈ n :: ns, '\n' ∉ m) :
    updateModFiles none (n :: ns) = some (some (modFile (firstOccurrences (n :: ns)))) := by
  have e : updateModFile none n = some (some (modFile [n])) := by
    simp only [updateModFile, modFile_eq, List.flatMap_cons, List.flatMap_nil, List.append_nil, List.append_assoc,
      List.singleton_append]
  simp only [updateModFiles, e, Option.bind_some]
  rw [updates_modFile ns [n] (fun m hm => h m (by simp_all)) (fun m hm => h m (List.mem_cons_of_mem _ hm))]
  congr 3
  simp only [firstOccurrences, List.singleton_append, List.cons.injEq, true_and]
  refine List.filter_congr fun m hm => ?_
  simp only [List.contains_eq_mem, List.mem_singleton]
  by_cases h2 : m = n <;> simp [h2]

/-- On any file whose text is not empty and ends with a line end, the second call does nothing. -/
theorem C59_idempotent_partial (text name : Str) (hn : '\n' ∉ name) (t : Str) (ht : text = t ++ ['\n']) (file' : Option Str)
    (h : updateModFile (some text) name = some file') : updateModFile file' name = some file' := by
  unfold updateModFile at h
  simp only at h
  split at h
  · cases h
  · rename_i hp
    cases h
    simp only [updateModFile, hp]
  · rename_i hp
    cases h
    have hl : lines (text ++ modLine name) = lines text ++ [PUB_MOD ++ name ++ [';']] := by
      subst ht
      have := lines_append t (modLine name)
      simp only [List.append_assoc, List.singleton_append] at this ⊢
      rw [this]
      have := lines_modLine hn []
      simp only [List.append_nil] at this
      rw [this]
      simp [lines, linesFrom]
    have : isPresent name (lines (text ++ modLine name)) = some true := by
      rw [hl]
      cases hls : lines text with
      | nil =>
        exfalso
        have hne : ∀ acc (t : Str), linesFrom acc (t ++ ['\n']) ≠ [] := by
          intro acc t
          induction t generalizing acc with
          | nil => simp [linesFrom]
          | cons c t ih =>
            simp only [List.cons_append, linesFrom]
            split
            · simp
            · exact ih _
        exact hne [] t (by rw [← ht]; exact hls)
      | cons l ls =>
        rw [hls] at hp
        simp only [isPresent, List.cons_append] at hp ⊢
        by_cases hh : (afterFirst MAGIC_HEADER l).isSome = true
        · rw [if_pos hh] at hp ⊢
          have := scanLines_append name (l :: ls) [PUB_MOD ++ name ++ [';']]
          rw [List.cons_append] at this
          rw [this, hp]
          simp only [scanLines, lineRefers_mod, beq_self_eq_true]
        · rw [if_neg hh] at hp
          cases hp
    simp only [updateModFile, this]

/-- The history of a file that exists already. -/
example : updateModFiles none ["a".toList, "b".toList, "a".toList] =
    some (some "// Automatically generated mod.rs\npub mod a;\npub mod b;\n".toList) := by decide +kernel

example : updateModFile (some "// mine\npub mod b;\n".toList) "a".toList = some (some "// mine\npub mod b;\n".toList) := by
  decide +kernel

/-- C59 is false of a generated `mod.rs` that does not end with a line end (an editor may have removed it): every call adds
text, and breaks the last line. -/
theorem C59_refuted_no_newline :
    updateModFiles (some "// Automatically generated mod.rs\npub mod b;".toList) ["a".toList] =
      some (some "// Automatically generated mod.rs\npub mod b;pub mod a;\n".toList) ∧
    updateModFiles (some "// Automatically generated mod.rs\npub mod b;".toList) ["a".toList, "a".toList] =
      some (some "// Automatically generated mod.rs\npub mod b;pub mod a;\npub mod a;\n".toList) := by
  decide +kernel

/-- C59 is false of an empty `mod.rs`: it has no header, but is modified (and from then on it never is again, since its first
line is not the header). -/
theorem C59_refuted_empty :
    updateModFiles (some []) ["a".toList, "b".toList] = some (some "pub mod a;\n".toList) := by
  decide +kernel

/-- A line `pub mod ` with nothing after it makes pb-rs panic. -/
theorem C59_refuted_panic :
    updateModFile (some "// Automatically generated mod.rs\npub mod \n".toList) "a".toList = none := by
  decide +kernel

/-- A declaration that is commented out counts as present. -/
theorem C59_refuted_comment :
    updateModFile (some "// Automatically generated mod.rs\n// pub mod a;\n".toList) "a".toList =
      some (some "// Automatically generated mod.rs\n// pub mod a;\n".toList) := by
  decide +kernel

/-- The text is written in pieces, so a run may stop after any part of the line: the next run then completes a line that is
no declaration of either module. -/
theorem C59_refuted_crash : ∃ part, part <+: modLine "ab".toList ∧
    updateModFile (some (modFile [] ++ part)) "ab".toList =
      some (some "// Automatically generated mod.rs\npub mod apub mod ab;\n".toList) :=
  ⟨"pub mod a".toList, by decide, by decide +kernel⟩

end QP.Pbrs
