import Verif.Proofs.MessageText
/-!
# The parser reads files
-/

set_option linter.unusedVariables false

namespace QP.Pbrs.Grammar
open Nom Parse

variable {syn : Syntax}

/-! ## Services -/

theorem gap_noKw {c : Char} {k g x : Str} (hg : Gap g) (hc : Letter c) (hx : Head NoStart x) : tok (c :: k) (g ++ x) = .err :=
  tok_start (Gap.headP hg (fun _ => noStart_gap) hx) hc

theorem rpcEnd_ok {e r : Str} (he : e = c! ";" ∨ ∃ (g : Str) (l : List Str) (g' : Str), Gap g ∧ (∀ t ∈ l, OptionText t) ∧ Gap g' ∧
    e = c! "{" ++ g ++ l.flatten ++ g' ++ c! "}") : rpcEnd (e ++ r) = .ok () r := by
  rcases he with rfl | ⟨g, l, g', hg, hl, hg', rfl⟩
  · exact (alt_err (value_err (delimited_err (pair_err (tok_lit (by decide) (by decide)))))).trans (alt_ok (value_ok (tok_ok _ _)))
  · have e : c! "{" ++ g ++ l.flatten ++ g' ++ c! "}" ++ r = c! "{" ++ (g ++ (l.flatten ++ (g' ++ (c! "}" ++ r)))) := by
      simp only [List.append_assoc]
    rw [e]
    have hbrace : Head NoStart (c! "}" ++ r) := Head.lit (by unfold NoStart Letter; decide)
    have hend : many0 (alt [optionIgnore, value () (tok (c! ";"))]) (g' ++ (c! "}" ++ r)) = .ok [] (g' ++ (c! "}" ++ r)) := by
      refine many0_nil ((alt_err (value_err (delimited_err (pair_err (gap_noKw hg' (by unfold Letter; decide) hbrace))))).trans
        ((alt_err (value_err (tok_head fun hc => ?_))).trans alt_nil))
      have : Head (· ≠ ';') (g' ++ (c! "}" ++ r)) := Gap.headP hg' (by rintro c ((rfl | rfl | rfl | rfl) | rfl) <;> decide)
        (Head.lit (by decide))
      exact this _ hc rfl
    have hopts : ∀ l : List Str, (∀ t ∈ l, OptionText t) → ∃ us, many0 (alt [optionIgnore, value () (tok (c! ";"))])
        (l.flatten ++ (g' ++ (c! "}" ++ r))) = .ok us (g' ++ (c! "}" ++ r)) := by
      intro l hl
      induction l with
      | nil => exact ⟨[], hend⟩
      | cons t l ih =>
        obtain ⟨us, h⟩ := ih fun t ht => hl t (by simp [ht])
        have ht := hl t (by simp)
        rw [List.flatten_cons, List.append_assoc]
        refine ⟨_, many0_cons (alt_ok (option_ok ht)) ?_ h⟩
        have := List.length_pos_iff.mpr (option_head ht).1
        simp only [List.length_append]; omega
    refine alt_ok ?_
    cases l with
    | nil =>
      have e2 : c! "{" ++ (g ++ (([] : List Str).flatten ++ (g' ++ (c! "}" ++ r)))) = c! "{" ++ (g ++ g' ++ (c! "}" ++ r)) := by
        simp only [List.append_assoc, List.flatten_nil, List.nil_append]
      rw [e2]
      have hn : many0 (alt [optionIgnore, value () (tok (c! ";"))]) (c! "}" ++ r) = .ok [] (c! "}" ++ r) :=
        many0_nil ((alt_err (value_err (delimited_err (pair_err (tok_lit (by decide) (by decide)))))).trans
          ((alt_err (value_err (tok_lit (by decide) (by decide)))).trans alt_nil))
      exact value_ok (delimited_ok (pair_ok (tok_ok _ _) (gap0_ok (hg.append hg') (Head.lit (by decide)))) hn
        (pair_ok (gap0_nil (Head.lit (by decide))) (tok_ok _ _)))
    | cons t l =>
      obtain ⟨us, h⟩ := hopts (t :: l) hl
      refine value_ok (delimited_ok (pair_ok (tok_ok _ _) (gap0_ok hg ?_)) h (pair_ok (gap0_ok hg' (Head.lit (by decide))) (tok_ok _ _)))
      rw [List.flatten_cons, List.append_assoc]
      exact (option_stop (hl t (by simp)) _).1

theorem rpcEnd_stop {e r : Str} (he : e = c! ";" ∨ ∃ (g : Str) (l : List Str) (g' : Str), Gap g ∧ (∀ t ∈ l, OptionText t) ∧ Gap g' ∧
    e = c! "{" ++ g ++ l.flatten ++ g' ++ c! "}") : Head Stop (e ++ r) := by
  rcases he with rfl | ⟨g, l, g', hg, hl, hg', rfl⟩
  · exact Head.lit (by decide)
  · exact Head.cons (by decide)

theorem rpc_ok {f : RpcFunction} {t r : Str} (h : RpcText f t) : rpcFunction (t ++ r) = .ok f r := by
  cases h with
  | @mk name arg ret g1 g2 g3 g4 g5 g6 g7 g8 g9 e h1 hn h2 h3 ha h4 h5 h6 h7 hr h8 h9 he =>
    have eq : c! "rpc" ++ g1 ++ name ++ g2 ++ c! "(" ++ g3 ++ arg ++ g4 ++ c! ")" ++ g5 ++ c! "returns" ++ g6 ++ c! "(" ++ g7 ++
          ret ++ g8 ++ c! ")" ++ g9 ++ e ++ r =
        c! "rpc" ++ (g1 ++ (name ++ (g2 ++ (c! "(" ++ (g3 ++ (arg ++ (g4 ++ (c! ")" ++ (g5 ++ (c! "returns" ++ (g6 ++ (c! "(" ++ (g7 ++
          (ret ++ (g8 ++ (c! ")" ++ (g9 ++ (e ++ r)))))))))))))))))) := by
      simp only [List.append_assoc]
    rw [eq]
    exact map_ok (pair_ok (delimited_ok (pair_ok (tok_ok _ _) (gap1_ok h1 hn.stop))
        (word_ok hn (Gap.headP h2 (fun _ => noWord_gap) (Head.lit (by decide)))) (gap0_ok h2 (Head.lit (by decide))))
      (pair_ok (delimited_ok (pair_ok (tok_ok _ _) (gap0_ok h3 ha.stop))
        (word_ok ha (Gap.headP h4 (fun _ => noWord_gap) (Head.lit (by decide))))
        (pair_ok (gap0_ok h4 (Head.lit (by decide))) (tok_ok _ _)))
      (pair_ok (delimited_ok (pair_ok (gap1_ok h5 (Head.lit (by decide))) (pair_ok (tok_ok _ _)
          (pair_ok (gap0_ok h6 (Head.lit (by decide))) (pair_ok (tok_ok _ _) (gap0_ok h7 hr.stop)))))
        (word_ok hr (Gap.headP h8 (fun _ => noWord_gap) (Head.lit (by decide))))
        (pair_ok (gap0_ok h8 (Head.lit (by decide))) (tok_ok _ _)))
      ((preceded_ok (gap0_ok h9 (rpcEnd_stop he))).trans (rpcEnd_ok he)))))

theorem rpc_stop {f : RpcFunction} {t : Str} (h : RpcText f t) (r : Str) : Head Stop (t ++ r) := by
  cases h with
  | mk =>
    simp only [List.append_assoc]
    exact Head.lit (by decide)

theorem service_ok {s : RpcService} {t r : Str} (h : ServiceText s t) : rpcService (t ++ r) = .ok s r := by
  cases h with
  | @mk name g1 g2 b g3 l h1 hn h2 hb h3 hl =>
    have eq : c! "service" ++ g1 ++ name ++ g2 ++ c! "{" ++ b ++ g3 ++ c! "}" ++ r =
      c! "service" ++ (g1 ++ (name ++ (g2 ++ (c! "{" ++ (b ++ (g3 ++ (c! "}" ++ r))))))) := by
      simp only [List.append_assoc]
    rw [eq]
    have herr : rpcFunction (c! "}" ++ r) = .err :=
      map_err (pair_err (delimited_err (pair_err (tok_lit (by decide) (by decide)))))
    have hbody : many0 (delimited gap0 rpcFunction gap0) (b ++ (g3 ++ (c! "}" ++ r))) = .ok l (c! "}" ++ r) := by
      by_cases hne : l = []
      · subst hne
        cases hb
        rw [hl rfl]
        exact many0_nil (delimited_err2 (gap0_nil (Head.lit (by decide))) herr)
      · exact (many_ok (fun a t r h => rpc_ok h) (fun a t r h => rpc_stop h r) (Head.lit (by decide)) herr
          h3 hb hne).2
    exact map_ok (pair_ok (delimited_ok (pair_ok (tok_ok _ _) (gap1_ok h1 hn.stop))
        (word_ok hn (Gap.headP h2 (fun _ => noWord_gap) (Head.lit (by decide)))) (gap0_ok h2 (Head.lit (by decide))))
      (delimited_ok (tok_ok _ _) hbody (tok_ok _ _)))

/-! ## Extensions -/

theorem extend_ok {e : Extend} {t r : Str} (h : ExtendText syn e t) (hr : Clean r) : extend syn (t ++ r) = .ok e r := by
  cases h with
  | @mk name g1 g2 b g3 e fs h1 hn h2 hb hne h3 he =>
    have eq : c! "extend" ++ g1 ++ name ++ g2 ++ c! "{" ++ b ++ g3 ++ c! "}" ++ e ++ r =
      c! "extend" ++ (g1 ++ (name ++ (g2 ++ (c! "{" ++ (b ++ (g3 ++ (c! "}" ++ (e ++ r)))))))) := by
      simp only [List.append_assoc]
    rw [eq]
    exact map_ok (terminated_ok (pair_ok (delimited_ok (pair_ok (tok_ok _ _) (gap1_ok h1 hn.stop))
      (name_ok hn (Gap.headP h2 (fun _ => noName_gap) (Head.cons (by decide)))) (gap0_ok h2 (Head.cons (by decide))))
      (delimited_ok (tok_ok _ _) (many_ok (fun a t r h => field_ok h) (fun a t r h => field_stop h r) (Head.lit (by decide))
        brace_field_err h3 hb hne).1 (tok_ok _ _))) (semi_ok he hr))

/-! ## The statements of a file -/

theorem fe_start {s : Str} (h : Head NoStart s) : fileEvent syn s = value Event.ignore br s := by
  have L : ∀ {c : Char}, c.isAlpha = true → Letter c := fun h => Or.inl h
  refine (alt_err (map_err (delimited_err (pair_err (tok_start h (L (by decide))))))).trans
    ((alt_err (map_err (delimited_err (pair_err (tok_start h (L (by decide))))))).trans
    ((alt_err (map_err (delimited_err (pair_err (tok_start h (L (by decide))))))).trans
    ((alt_err (map_err ?_)).trans
    ((alt_err (map_err (map_err (terminated_err (pair_err (delimited_err (pair_err (tok_start h (L (by decide)))))))))).trans
    ((alt_err (map_err (map_err (pair_err (delimited_err (pair_err (tok_start h (L (by decide))))))))).trans
    ((alt_err (map_err (map_err (terminated_err (pair_err (delimited_err (pair_err (tok_start h (L (by decide)))))))))).trans
    ((alt_err (value_err (value_err (delimited_err (pair_err (tok_start h (L (by decide)))))))).trans ?_)))))))
  · rw [message_eq]
    exact map_err (terminated_err (pair_err (delimited_err (pair_err (tok_start h (L (by decide)))))))
  · simp only [alt]
    cases value Event.ignore br s <;> rfl

theorem fe_gap {g x : Str} (hg : Gap1 g) (hx : Head Stop x) : fileEvent syn (g ++ x) = .ok .ignore x := by
  rw [fe_start (Gap1.headP hg fun _ => noStart_gap)]
  exact value_ok (br_ok hg hx)

section
variable {k x : Str}

theorem syntaxP_err (h : ¬ c! "syntax" <+: k) (h' : ¬ k <+: c! "syntax") : syntaxP (k ++ x) = .err :=
  delimited_err (pair_err (tok_lit h h'))

theorem importP_err (h : ¬ c! "import" <+: k) (h' : ¬ k <+: c! "import") : importP (k ++ x) = .err :=
  delimited_err (pair_err (tok_lit h h'))

theorem packageP_err (h : ¬ c! "package" <+: k) (h' : ¬ k <+: c! "package") : packageP (k ++ x) = .err :=
  delimited_err (pair_err (tok_lit h h'))

theorem enumerator_err (h : ¬ c! "enum" <+: k) (h' : ¬ k <+: c! "enum") : enumerator (k ++ x) = .err :=
  map_err (terminated_err (pair_err (delimited_err (pair_err (tok_lit h h')))))

theorem rpcService_err (h : ¬ c! "service" <+: k) (h' : ¬ k <+: c! "service") : rpcService (k ++ x) = .err :=
  map_err (pair_err (delimited_err (pair_err (tok_lit h h'))))

theorem extend_err (h : ¬ c! "extend" <+: k) (h' : ¬ k <+: c! "extend") : extend syn (k ++ x) = .err :=
  map_err (terminated_err (pair_err (delimited_err (pair_err (tok_lit h h')))))

end

theorem fe_syntax {t r : Str} (h : syntaxP (t ++ r) = .ok syn r) : fileEvent syn (t ++ r) = .ok (.syntax_ syn) r :=
  alt_ok (map_ok h)

theorem import_ok {g1 p g2 r : Str} (h1 : Gap1 g1) (hp : '"' ∉ p) (h2 : Gap g2) :
    importP (c! "import" ++ (g1 ++ (c! "\"" ++ (p ++ (c! "\"" ++ (g2 ++ (c! ";" ++ r))))))) = .ok p r :=
  delimited_ok (pair_ok (tok_ok _ _) (gap1_ok h1 (Head.lit (by decide)))) (quote_ok hp)
    (pair_ok (gap0_ok h2 (Head.lit (by decide))) (tok_ok _ _))

theorem package_ok {g1 p g2 r : Str} (h1 : Gap1 g1) (hp : Name p) (h2 : Gap g2) :
    packageP (c! "package" ++ (g1 ++ (p ++ (g2 ++ (c! ";" ++ r))))) = .ok p r :=
  delimited_ok (pair_ok (tok_ok _ _) (gap1_ok h1 hp.stop)) (name_ok hp (Gap.headP h2 (fun _ => noName_gap) (Head.cons (by decide))))
    (pair_ok (gap0_ok h2 (Head.lit (by decide))) (tok_ok _ _))

/-- What holds of the text of each statement: it is read as an event. -/
structure Statement (syn : Syntax) (t : Str) (e : Event) : Prop where
  ne : t ≠ []
  head : Head NameChar t
  noSyntax : ∀ r, syntaxP (t ++ r) = .err
  ok : ∀ r, Clean r → fileEvent syn (t ++ r) = .ok e r

theorem st_import {g1 p g2 : Str} (h1 : Gap1 g1) (hp : '"' ∉ p) (h2 : Gap g2) :
    Statement syn (c! "import" ++ g1 ++ c! "\"" ++ p ++ c! "\"" ++ g2 ++ c! ";") (.import_ p) where
  ne := by simp
  head := Head.cons (by unfold NameChar; decide)
  noSyntax := fun r => by simp only [List.append_assoc]; exact syntaxP_err (by decide) (by decide)
  ok := fun r _ => by
    simp only [List.append_assoc]
    exact (alt_err (map_err (syntaxP_err (by decide) (by decide)))).trans (alt_ok (map_ok (import_ok h1 hp h2)))

theorem st_package {g1 p g2 : Str} (h1 : Gap1 g1) (hp : Name p) (h2 : Gap g2) :
    Statement syn (c! "package" ++ g1 ++ p ++ g2 ++ c! ";") (.package p) where
  ne := by simp
  head := Head.cons (by unfold NameChar; decide)
  noSyntax := fun r => by simp only [List.append_assoc]; exact syntaxP_err (by decide) (by decide)
  ok := fun r _ => by
    simp only [List.append_assoc]
    exact (alt_err (map_err (syntaxP_err (by decide) (by decide)))).trans
      ((alt_err (map_err (importP_err (by decide) (by decide)))).trans (alt_ok (map_ok (package_ok h1 hp h2))))

theorem st_message {m : Message} {t : Str} (h : MessageText syn m t) : Statement syn t (.message m) := by
  have hok := fun r => message_ok (r := r) h
  cases h with
  | mk h1 hn h2 hb h3 he =>
    simp only [List.append_assoc] at hok
    refine ⟨by simp, Head.cons (by unfold NameChar; decide), fun r => ?_, fun r hr => ?_⟩
    · simp only [List.append_assoc]; exact syntaxP_err (by decide) (by decide)
    · simp only [List.append_assoc]
      exact (alt_err (map_err (syntaxP_err (by decide) (by decide)))).trans
        ((alt_err (map_err (importP_err (by decide) (by decide)))).trans
        ((alt_err (map_err (packageP_err (by decide) (by decide)))).trans (alt_ok (map_ok (hok r hr)))))

theorem st_enum {e : Enumerator} {t : Str} (h : EnumText e t) : Statement syn t (.enum e) := by
  have hok := fun r => enum_ok (r := r) h
  cases h with
  | mk h1 hn h2 hb h3 he =>
    simp only [List.append_assoc] at hok
    refine ⟨by simp, Head.cons (by unfold NameChar; decide), fun r => ?_, fun r hr => ?_⟩
    · simp only [List.append_assoc]; exact syntaxP_err (by decide) (by decide)
    · simp only [List.append_assoc]
      exact (alt_err (map_err (syntaxP_err (by decide) (by decide)))).trans
        ((alt_err (map_err (importP_err (by decide) (by decide)))).trans
        ((alt_err (map_err (packageP_err (by decide) (by decide)))).trans
        ((alt_err (map_err (message_kw_err (by decide) (by decide)))).trans (alt_ok (map_ok (hok r hr))))))

theorem st_service {s : RpcService} {t : Str} (h : ServiceText s t) : Statement syn t (.service s) := by
  have hok := fun r => service_ok (r := r) h
  cases h with
  | mk h1 hn h2 hb h3 he =>
    simp only [List.append_assoc] at hok
    refine ⟨by simp, Head.cons (by unfold NameChar; decide), fun r => ?_, fun r hr => ?_⟩
    · simp only [List.append_assoc]; exact syntaxP_err (by decide) (by decide)
    · simp only [List.append_assoc]
      exact (alt_err (map_err (syntaxP_err (by decide) (by decide)))).trans
        ((alt_err (map_err (importP_err (by decide) (by decide)))).trans
        ((alt_err (map_err (packageP_err (by decide) (by decide)))).trans
        ((alt_err (map_err (message_kw_err (by decide) (by decide)))).trans
        ((alt_err (map_err (enumerator_err (by decide) (by decide)))).trans (alt_ok (map_ok (hok r)))))))

theorem st_extend {e : Extend} {t : Str} (h : ExtendText syn e t) : Statement syn t (.extend e) := by
  have hok := fun r => extend_ok (r := r) h
  cases h with
  | mk h1 hn h2 hb hne h3 he =>
    simp only [List.append_assoc] at hok
    refine ⟨by simp, Head.cons (by unfold NameChar; decide), fun r => ?_, fun r hr => ?_⟩
    · simp only [List.append_assoc]; exact syntaxP_err (by decide) (by decide)
    · simp only [List.append_assoc]
      exact (alt_err (map_err (syntaxP_err (by decide) (by decide)))).trans
        ((alt_err (map_err (importP_err (by decide) (by decide)))).trans
        ((alt_err (map_err (packageP_err (by decide) (by decide)))).trans
        ((alt_err (map_err (message_kw_err (by decide) (by decide)))).trans
        ((alt_err (map_err (enumerator_err (by decide) (by decide)))).trans
        ((alt_err (map_err (rpcService_err (by decide) (by decide)))).trans (alt_ok (map_ok (hok r hr))))))))

theorem st_option {t : Str} (h : OptionText t) : Statement syn t .ignore := by
  have hok := fun r => option_ok (r := r) h
  have hsp := option_split h
  refine ⟨(option_head h).1, (option_head h).2, fun r => ?_, fun r hr => ?_⟩
  · obtain ⟨g, x, e, _⟩ := hsp r
    rw [e]; exact syntaxP_err (by decide) (by decide)
  · have hok := hok r
    obtain ⟨g, x, e, _⟩ := hsp r
    rw [e] at hok ⊢
    exact (alt_err (map_err (syntaxP_err (by decide) (by decide)))).trans
      ((alt_err (map_err (importP_err (by decide) (by decide)))).trans
      ((alt_err (map_err (packageP_err (by decide) (by decide)))).trans
      ((alt_err (map_err (message_kw_err (by decide) (by decide)))).trans
      ((alt_err (map_err (enumerator_err (by decide) (by decide)))).trans
      ((alt_err (map_err (rpcService_err (by decide) (by decide)))).trans
      ((alt_err (map_err (extend_err (by decide) (by decide)))).trans (alt_ok (value_ok hok))))))))

/-- The file with another syntax. -/
def setSyntax (y : Syntax) (F : File) : File := { F with desc := { F.desc with syntax_ := y } }

/-- What the statements of a file do (whichever syntax it declares). -/
def Statements (syn : Syntax) (F : File) (s : Str) : Prop :=
  (∀ rest, syntaxP rest = .err → syntaxP (s ++ rest) = .err) ∧
  (∀ {rest r : Str} {evs : List Event}, Clean rest → many0 (fileEvent syn) rest = .ok evs r →
    ∃ evs', many0 (fileEvent syn) (s ++ rest) = .ok evs' r ∧
      ∀ y, evs'.foldl Event.apply { desc := { syntax_ := y } } = evs.foldl Event.apply (setSyntax y F)) ∧
  (∀ {rest : Str}, Clean rest → many0 (fileEvent syn) rest = .panic → many0 (fileEvent syn) (s ++ rest) = .panic)

theorem statements_step {F F' : File} {s g t : Str} {e : Event} (ih : Statements syn F s) (hg : Gap g) (h : Statement syn t e)
    (hF : ∀ y, e.apply (setSyntax y F) = setSyntax y F') : Statements syn F' (s ++ g ++ t) := by
  refine ⟨?_, ?_, ?_⟩
  · intro rest _
    have e1 : s ++ g ++ t ++ rest = s ++ (g ++ (t ++ rest)) := by simp only [List.append_assoc]
    rw [e1]
    apply ih.1
    by_cases hne : g = []
    · subst hne; exact h.noSyntax rest
    · exact delimited_err (pair_err (tok_start (Gap1.headP ⟨hg, hne⟩ fun _ => noStart_gap) (by unfold Letter; decide)))
  · intro rest r evs hc hrest
    have e1 : s ++ g ++ t ++ rest = s ++ (g ++ (t ++ rest)) := by simp only [List.append_assoc]
    rw [e1]
    have hc2 := name_clean (r := rest) h.ne h.head hg
    rcases many_step hg (fun x hg hx => fe_gap (syn := syn) hg hx) (Head.left h.ne (h.head.mono fun _ hc => hc.stop)) h.ne (h.ok rest hc)
      hrest with h3 | h3
    · obtain ⟨evs', h4, h5⟩ := ih.2.1 hc2 h3
      exact ⟨evs', h4, fun y => by rw [h5, List.foldl_cons, hF]⟩
    · obtain ⟨evs', h4, h5⟩ := ih.2.1 hc2 h3
      exact ⟨evs', h4, fun y => by
        rw [h5, List.foldl_cons, List.foldl_cons]; exact congrArg (fun m => evs.foldl Event.apply m) (hF y)⟩
  · intro rest hc hrest
    have e1 : s ++ g ++ t ++ rest = s ++ (g ++ (t ++ rest)) := by simp only [List.append_assoc]
    rw [e1]
    exact ih.2.2 (name_clean (r := rest) h.ne h.head hg) (many_panic hg (fun x hg hx => fe_gap (syn := syn) hg hx)
      (Head.left h.ne (h.head.mono fun _ hc => hc.stop)) h.ne (h.ok rest hc) hrest)

theorem statements_ok {F : File} {s : Str} (h : StatementsText syn F s) : Statements syn F s ∧ F.desc.syntax_ = syn := by
  induction h with
  | nil => exact ⟨⟨fun rest h => h, fun {rest r evs} _ h => ⟨evs, h, fun _ => rfl⟩, fun {rest} _ h => h⟩, rfl⟩
  | import_ _ hg h1 hp h2 ih => exact ⟨statements_step ih.1 hg (st_import h1 hp h2) fun _ => rfl, ih.2⟩
  | package _ hg h1 hp h2 ih => exact ⟨statements_step ih.1 hg (st_package h1 hp h2) fun _ => rfl, ih.2⟩
  | message _ hg h ih => exact ⟨statements_step ih.1 hg (st_message h) fun _ => rfl, ih.2⟩
  | enum _ hg h ih => exact ⟨statements_step ih.1 hg (st_enum h) fun _ => rfl, ih.2⟩
  | service _ hg h ih => exact ⟨statements_step ih.1 hg (st_service h) fun _ => rfl, ih.2⟩
  | extend _ hg h ih => exact ⟨statements_step ih.1 hg (st_extend h) fun _ => rfl, ih.2⟩
  | option _ hg h ih => exact ⟨statements_step ih.1 hg (st_option h) fun _ => rfl, ih.2⟩

/-! ## Files -/

theorem syntax_ok {t r : Str} (h : SyntaxText syn t) : syntaxP (t ++ r) = .ok syn r := by
  cases h with
  | @proto2 g1 g2 g3 h1 h2 h3 =>
    simp only [List.append_assoc]
    exact delimited_ok (pair_ok (tok_ok _ _) (pair_ok (gap0_ok h1 (Head.lit (by decide))) (pair_ok (tok_ok _ _)
      (gap0_ok h2 (Head.lit (by decide)))))) (alt_ok (value_ok (tok_ok _ _))) (pair_ok (gap0_ok h3 (Head.lit (by decide))) (tok_ok _ _))
  | @proto3 g1 g2 g3 h1 h2 h3 =>
    simp only [List.append_assoc]
    exact delimited_ok (pair_ok (tok_ok _ _) (pair_ok (gap0_ok h1 (Head.lit (by decide))) (pair_ok (tok_ok _ _)
      (gap0_ok h2 (Head.lit (by decide)))))) ((alt_err (value_err (tok_lit (by decide) (by decide)))).trans (alt_ok (value_ok (tok_ok _ _))))
      (pair_ok (gap0_ok h3 (Head.lit (by decide))) (tok_ok _ _))

theorem anychars (s : Str) : many0 anychar s = .ok s [] := by
  induction s with
  | nil => exact many0_nil rfl
  | cons c cs ih => exact many0_cons rfl (by simp) ih

theorem scan_stated {t rest : Str} (h : syntaxP (t ++ rest) = .ok syn rest) (hne : rest ≠ []) :
    scanSyntax (t ++ rest) = .ok syn rest := by
  have h1 : separatedN (many0 anychar) syntaxP (rest.length + 1) rest = .ok [] rest := by
    have hl : ([] : Str).length < rest.length := List.length_pos_iff.mpr hne
    have he : syntaxP [] = .err := by rfl
    simp only [separatedN, anychars, hl, if_true, he]
  refine (map_ok (a := [syn]) (r := rest) ?_).trans rfl
  simp only [separatedList0, h]
  rw [map_ok h1]

theorem scan_none {s : Str} (h : syntaxP s = .err) : scanSyntax s = .ok .proto2 s := by
  refine (map_ok (a := []) (r := s) ?_).trans rfl
  simp only [separatedList0, h]

theorem fe_nil : fileEvent syn [] = .err := by
  rw [fe_start Head.nil]; rfl

theorem end_ok {g : Str} (hg : EndGap g) : many0 (fileEvent syn) g = .ok [] [] ∨ many0 (fileEvent syn) g = .ok [.ignore] [] := by
  by_cases hne : g = []
  · subst hne; exact Or.inl (many0_nil fe_nil)
  · refine Or.inr (many0_cons (r := []) ?_ (List.length_pos_iff.mpr hne) (many0_nil fe_nil))
    have hs : Head NoStart g := by
      rcases hg with hg | ⟨g, l, hg, _, rfl⟩
      · exact hg.head.mono fun _ => noStart_gap
      · rw [List.append_assoc]
        exact Gap.headP hg (fun _ => noStart_gap) (Head.lit (by unfold NoStart Letter; decide))
    rw [fe_start hs]
    exact value_ok (br_end hg hne)

theorem end_noSyntax {g : Str} (hg : EndGap g) : syntaxP g = .err := by
  have hs : Head NoStart g := by
    rcases hg with hg | ⟨g, l, hg, _, rfl⟩
    · exact hg.head.mono fun _ => noStart_gap
    · rw [List.append_assoc]
      exact Gap.headP hg (fun _ => noStart_gap) (Head.lit (by unfold NoStart Letter; decide))
  exact delimited_err (pair_err (tok_start hs (by unfold Letter; decide)))

/-- The statements and the end of a file. -/
theorem rest_ok {F : File} {s g : Str} (hs : StatementsText syn F s) (hg : EndGap g) :
    ∃ evs, many0 (fileEvent syn) (s ++ g) = .ok evs [] ∧
      ∀ y, evs.foldl Event.apply { desc := { syntax_ := y } } = setSyntax y F := by
  rcases end_ok (syn := syn) hg with h | h
  · exact (statements_ok hs).1.2.1 (clean_end hg) h
  · exact (statements_ok hs).1.2.1 (clean_end hg) h

theorem setSyntax_same {F : File} (h : F.desc.syntax_ = syn) : setSyntax syn F = F := by
  cases F with
  | mk d i s e => cases d; simp only at h; subst h; rfl

theorem syntax_pos {t : Str} (h : SyntaxText syn t) : 0 < t.length := by
  cases h <;> simp

theorem file_ok {F : File} {s : Str} (h : FileText F s) : fileDescriptor s = .ok F [] := by
  cases h with
  | @default _ s g hs hg =>
    obtain ⟨evs, h1, h2⟩ := rest_ok hs hg
    simp only [fileDescriptor, scan_none ((statements_ok hs).1.1 g (end_noSyntax hg))]
    rw [map_ok h1]
    exact congrArg (Res.ok · []) ((h2 .proto2).trans (setSyntax_same (statements_ok hs).2))
  | @stated syn _ t s g ht hs hg hne =>
    obtain ⟨evs, h1, h2⟩ := rest_ok hs hg
    have h3 := syntax_ok (r := s ++ g) ht
    have h4 : many0 (fileEvent syn) (t ++ (s ++ g)) = .ok (.syntax_ syn :: evs) [] := by
      refine many0_cons (fe_syntax h3) ?_ h1
      have := syntax_pos ht
      simp only [List.length_append]; omega
    rw [List.append_assoc]
    simp only [fileDescriptor, scan_stated h3 hne]
    rw [map_ok h4]
    exact congrArg (Res.ok · []) ((h2 syn).trans (setSyntax_same (statements_ok hs).2))

/-- A gap before the syntax statement: the statements are read as those of a proto2 file. -/
theorem file_gap {F : File} {g0 t s g : Str} (h0 : Gap1 g0) (ht : SyntaxText syn t) (hs : StatementsText .proto2 F s) (hg : EndGap g) :
    fileDescriptor (g0 ++ t ++ s ++ g) = .ok (setSyntax syn F) [] := by
  obtain ⟨evs, h1, h2⟩ := rest_ok hs hg
  have e : g0 ++ t ++ s ++ g = g0 ++ (t ++ (s ++ g)) := by simp only [List.append_assoc]
  have h3 := syntax_ok (r := s ++ g) ht
  have hstop : Head Stop (t ++ (s ++ g)) := by
    cases ht <;> (simp only [List.append_assoc]; exact Head.lit (by decide))
  have h4 : many0 (fileEvent .proto2) (t ++ (s ++ g)) = .ok (.syntax_ syn :: evs) [] := by
    refine many0_cons (alt_ok (map_ok h3)) ?_ h1
    have := syntax_pos ht
    simp only [List.length_append]; omega
  have h5 : many0 (fileEvent .proto2) (g0 ++ (t ++ (s ++ g))) = .ok (.ignore :: .syntax_ syn :: evs) [] := by
    refine many0_cons (fe_gap h0 hstop) ?_ h4
    have := List.length_pos_iff.mpr h0.2
    simp only [List.length_append]; omega
  have h6 : syntaxP (g0 ++ (t ++ (s ++ g))) = .err :=
    delimited_err (pair_err (tok_start (Gap1.headP h0 fun _ => noStart_gap) (by unfold Letter; decide)))
  rw [e]
  simp only [fileDescriptor, scan_none h6]
  rw [map_ok h5]
  exact congrArg (Res.ok · []) (h2 syn)

end QP.Pbrs.Grammar
