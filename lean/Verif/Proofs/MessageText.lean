import Verif.Proofs.Statements
/-!
# The parser reads messages and files
-/

set_option linter.unusedVariables false

namespace QP.Pbrs.Grammar
open Nom Parse

/-- A character with which no statement begins. -/
def NoStart (c : Char) : Prop := ¬ Letter c ∧ c ≠ '.'

theorem noStart_gap {c : Char} (h : Blank c ∨ c = '/') : NoStart c := by
  rcases h with (rfl | rfl | rfl | rfl) | rfl <;> (unfold NoStart Letter; decide)

theorem tok_start {c : Char} {k s : Str} (h : Head NoStart s) (hc : Letter c) : tok (c :: k) s = .err :=
  tok_head fun e => (h c e).1 hc

theorem field_start_err {ff : Syntax → FieldType → Option FreqToken → Frequency} {syn : Syntax} {s : Str} (h : Head NoStart s) :
    fieldGeneric ff syn s = .err := by
  have h1 : opt (terminated frequency gap1) s = .ok none s := by
    refine opt_err (terminated_err ?_)
    rw [frequency, alt_err (value_err (tok_start h (by unfold Letter; decide))), alt_err (value_err (tok_start h (by unfold Letter; decide))),
      alt_err (value_err (tok_start h (by unfold Letter; decide))), alt_nil]
  refine mapRes_err (pair_err2 h1 (pair_err (terminated_err ?_)))
  rw [fieldType_eq, alt_skip fun p hp hpre => ?_]
  · exact (alt_err (map_err (delimited_err (pair_err (tok_start h (by unfold Letter; decide)))))).trans
      ((alt_err (map_err (name_err h))).trans alt_nil)
  · have key : ∀ p ∈ scalarTypes, ∃ c k, p.2 = c :: k ∧ c.isAlpha = true := by
      intro p hp
      have : p.2 ≠ [] ∧ p.2.head?.all Char.isAlpha = true := by revert p; decide
      cases hk : p.2 with
      | nil => exact absurd hk this.1
      | cons c k => exact ⟨c, k, rfl, by simpa [hk] using this.2⟩
    obtain ⟨c, k, e, hc⟩ := key p hp
    obtain ⟨y, hy⟩ := hpre
    rw [e] at hy
    exact (h c (by rw [← hy]; rfl)).1 (Or.inl hc)

section
variable {syn : Syntax}

/-- The events of a message. -/
abbrev ev (syn : Syntax) : Parser MessageEvent := messageEvent (message syn) syn

theorem ev_start {s : Str} (h : Head NoStart s) : ev syn s = value MessageEvent.ignore br s := by
  have L : ∀ {c : Char}, c.isAlpha = true → Letter c := fun h => Or.inl h
  refine (alt_err (map_err (map_err (delimited_err (pair_err (tok_start h (L (by decide)))))))).trans
    ((alt_err (map_err (delimited_err (pair_err (tok_start h (L (by decide))))))).trans
    ((alt_err (map_err (field_start_err h))).trans
    ((alt_err (map_err ?_)).trans
    ((alt_err (map_err (map_err (terminated_err (pair_err (delimited_err (pair_err (tok_start h (L (by decide)))))))))).trans
    ((alt_err (map_err (map_err (pair_err (preceded_err (pair_err (tok_start h (L (by decide))))))))).trans
    ((alt_err (map_err (mapRes_err (delimited_err (pair_err (tok_start h (L (by decide)))))))).trans
    ((alt_err (value_err (value_err (delimited_err (pair_err (tok_start h (L (by decide)))))))).trans ?_)))))))
  · rw [message_eq]
    exact map_err (terminated_err (pair_err (delimited_err (pair_err (tok_start h (L (by decide)))))))
  · simp only [alt]
    cases value MessageEvent.ignore br s <;> rfl

theorem ev_gap {g x : Str} (hg : Gap1 g) (hx : Head Stop x) : ev syn (g ++ x) = .ok .ignore x := by
  rw [ev_start (Gap1.headP hg fun _ => noStart_gap)]
  exact value_ok (br_ok hg hx)

theorem ev_brace {x : Str} : ev syn (c! "}" ++ x) = .err := by
  rw [ev_start (Head.lit (by unfold NoStart Letter; decide))]
  exact value_err (br_err (Head.lit (by decide)))

/-! ## The statements of a message -/

theorem reserved_err {n x : Str} (h1 : ∀ c ∈ n, NameChar c) (h2 : Head NoWord x) (h3 : n ≠ c! "reserved") :
    reservedNums (n ++ x) = .err ∧ reservedNames (n ++ x) = .err := by
  have h := kw_err (k := c! "reserved") (q := gap1) (by decide) h1 h3 h2 fun s => gap1_name
  exact ⟨map_err (delimited_err h), delimited_err h⟩

theorem ev_field {f : Field} {t r : Str} (h : FieldText syn f t) : ev syn (t ++ r) = .ok (.field f) r := by
  obtain ⟨n, x, e, h1, h2, h3, _⟩ := field_first h r
  have h4 := reserved_err h1 h2 h3
  rw [← e] at h4
  exact (alt_err (map_err h4.1)).trans ((alt_err (map_err h4.2)).trans (alt_ok (map_ok (field_ok h))))

theorem ev_nums {l : List Int} {g1 s g2 r : Str} (h1 : Gap1 g1) (h : RangesText l s) (h2 : Gap g2) :
    ev syn (c! "reserved" ++ (g1 ++ (s ++ (g2 ++ (c! ";" ++ r))))) = .ok (.reservedNums l) r :=
  alt_ok (map_ok (reservedNums_ok h1 h h2))

theorem ev_names {l : List Str} {g1 s g2 r : Str} (h1 : Gap1 g1) (h : NamesText l s) (h2 : Gap g2) :
    ev syn (c! "reserved" ++ (g1 ++ (s ++ (g2 ++ (c! ";" ++ r))))) = .ok (.reservedNames l) r :=
  (alt_err (map_err (reservedNames_ok h1 h h2).2)).trans (alt_ok (map_ok (reservedNames_ok h1 h h2).1))

/-- A keyword and a gap, and something that is not a name, `=` and a number: the first three kinds are ruled out. -/
theorem ev_kw {k g x : Str} (hk : Word k) (hs : ∀ p ∈ scalars, ¬ p.2 <+: k)
    (hm : k ∉ [c! "optional", c! "repeated", c! "required", c! "reserved"]) (hm2 : k ≠ c! "map") (hg : Gap1 g)
    (hx : Head Stop x)
    (h : separatedPair word (delimited gap0 (tok (c! "=")) gap0) (alt [integer, hexInteger]) x = .err) :
    ev syn (k ++ (g ++ x)) = alt [map (message syn) .message, map enumerator .enumerator, map (oneOf syn) .oneof,
      map extensions (fun _ => .extensions), value .ignore optionIgnore, value .ignore br] (k ++ (g ++ x)) := by
  have h4 := reserved_err (n := k) (x := g ++ x) (fun c hc => Or.inl (hk.chars c hc)) (Gap1.headP hg fun _ => noWord_gap)
    (fun e => hm (by simp [e]))
  exact (alt_err (map_err h4.1)).trans ((alt_err (map_err h4.2)).trans
    (alt_err (map_err (field_kw_err (Or.inl (.word hk)) hs hm hm2 hg hx h))))

/-- A name and something other than `=`. -/
theorem nameBrace_err {name g x : Str} (hn : Word name) (hg : Gap g) :
    separatedPair word (delimited gap0 (tok (c! "=")) gap0) (alt [integer, hexInteger]) (name ++ (g ++ (c! "{" ++ x))) = .err :=
  separatedPair_err2 (word_ok hn (Gap.headP hg (fun _ => noWord_gap) (Head.cons (by decide))))
    (delimited_err2 (gap0_ok hg (Head.lit (by decide))) (tok_lit (by decide) (by decide)))

theorem kwWord {c : Char} {cs : Str} (h : c.isAlpha = true) (h2 : ∀ d ∈ cs, WordChar d) : Word (c :: cs) :=
  ⟨c, cs, rfl, Or.inl h, h2⟩

theorem message_kw_err {k x : Str} (h : ¬ c! "message" <+: k) (h' : ¬ k <+: c! "message") : message syn (k ++ x) = .err := by
  rw [message_eq]
  exact map_err (terminated_err (pair_err (delimited_err (pair_err (tok_lit h h')))))

theorem ev_enum {en : Enumerator} {t r : Str} (h : EnumText en t) (hr : Clean r) : ev syn (t ++ r) = .ok (.enumerator en) r := by
  have hok := enum_ok h hr
  cases h with
  | @mk name g1 g2 b g3 e l h1 hn h2 hb h3 he =>
    have eq : c! "enum" ++ g1 ++ name ++ g2 ++ c! "{" ++ b ++ g3 ++ c! "}" ++ e ++ r =
      c! "enum" ++ (g1 ++ (name ++ (g2 ++ (c! "{" ++ (b ++ (g3 ++ (c! "}" ++ (e ++ r)))))))) := by
      simp only [List.append_assoc]
    rw [eq] at hok ⊢
    rw [ev_kw (kwWord (by decide) (by decide)) (by decide) (by decide) (by decide) h1 hn.stop (nameBrace_err hn h2)]
    exact (alt_err (map_err (message_kw_err (by decide) (by decide)))).trans (alt_ok (map_ok hok))

theorem ev_oneof {o : OneOf} {t r : Str} (h : OneOfText syn o t) : ev syn (t ++ r) = .ok (.oneof o) r := by
  have hok := oneOf_ok (r := r) h
  cases h with
  | @mk name g1 g2 b g3 fs h1 hn h2 hb hne h3 =>
    have e : c! "oneof" ++ g1 ++ name ++ g2 ++ c! "{" ++ b ++ g3 ++ c! "}" ++ r =
      c! "oneof" ++ (g1 ++ (name ++ (g2 ++ (c! "{" ++ (b ++ (g3 ++ (c! "}" ++ r))))))) := by
      simp only [List.append_assoc]
    rw [e] at hok ⊢
    rw [ev_kw (kwWord (by decide) (by decide)) (by decide) (by decide) (by decide) h1 hn.stop (nameBrace_err hn h2)]
    exact (alt_err (map_err (message_kw_err (by decide) (by decide)))).trans
      ((alt_err (map_err (map_err (terminated_err (pair_err (delimited_err (pair_err (tok_lit (by decide) (by decide))))))))).trans
      (alt_ok (map_ok hok)))

theorem ev_extensions {t r : Str} (h : ExtensionsText t) : ev syn (t ++ r) = .ok .extensions r := by
  have hok := extensions_ok (r := r) h
  cases h with
  | @mk n g1 g2 g3 s e b h1 hs hn h2 h3 he hb =>
    have eq : c! "extensions" ++ g1 ++ s ++ g2 ++ c! "to" ++ g3 ++ e ++ b ++ c! ";" ++ r =
      c! "extensions" ++ (g1 ++ (s ++ (g2 ++ (c! "to" ++ (g3 ++ (e ++ (b ++ (c! ";" ++ r)))))))) := by
      simp only [List.append_assoc]
    rw [eq] at hok ⊢
    rw [ev_kw (kwWord (by decide) (by decide)) (by decide) (by decide) (by decide) h1 (hs.headP fun _ => digit_stop)
      (separatedPair_err (word_err (hs.headP fun _ => digit_not_letter)))]
    exact (alt_err (map_err (message_kw_err (by decide) (by decide)))).trans
      ((alt_err (map_err (map_err (terminated_err (pair_err (delimited_err (pair_err (tok_lit (by decide) (by decide))))))))).trans
      ((alt_err (map_err (map_err (pair_err (preceded_err (pair_err (tok_lit (by decide) (by decide)))))))).trans
      (alt_ok (map_ok hok))))

theorem ev_option {t r : Str} (h : OptionText t) : ev syn (t ++ r) = .ok .ignore r := by
  have hok := option_ok (r := r) h
  obtain ⟨g, x, e, hg, hx, _, herr⟩ := option_split h r
  rw [e] at hok ⊢
  rw [ev_kw (kwWord (by decide) (by decide)) (by decide) (by decide) (by decide) hg hx herr]
  exact (alt_err (map_err (message_kw_err (by decide) (by decide)))).trans
    ((alt_err (map_err (map_err (terminated_err (pair_err (delimited_err (pair_err (tok_lit (by decide) (by decide))))))))).trans
    ((alt_err (map_err (map_err (pair_err (preceded_err (pair_err (tok_lit (by decide) (by decide)))))))).trans
    ((alt_err (map_err (mapRes_err (delimited_err (pair_err (tok_lit (by decide) (by decide))))))).trans
    (alt_ok (value_ok hok)))))

theorem ev_message {m : Message} {g1 name g2 x r : Str} (h1 : Gap1 g1) (hn : Word name) (h2 : Gap g2)
    (hok : message syn (c! "message" ++ (g1 ++ (name ++ (g2 ++ (c! "{" ++ x))))) = .ok m r) :
    ev syn (c! "message" ++ (g1 ++ (name ++ (g2 ++ (c! "{" ++ x))))) = .ok (.message m) r := by
  rw [ev_kw (kwWord (by decide) (by decide)) (by decide) (by decide) (by decide) h1 hn.stop (nameBrace_err hn h2)]
  exact alt_ok (map_ok hok)

/-- The texts of statements begin with letters or dots. -/
theorem name_clean {t : Str} {r : Str} (hne : t ≠ []) (h : Head NameChar t) {g : Str} (hg : Gap g) : Clean (g ++ (t ++ r)) := by
  refine clean_gap hg (Head.left hne (h.mono fun _ hc => hc.stop)) ?_
  have : Head (· ≠ ';') (t ++ r) := Head.left hne (h.mono (by rintro c hc rfl; revert hc; unfold NameChar; decide))
  exact fun e => this _ e rfl

/-- What the statements `s` of a message do. -/
def Body (syn : Syntax) (m : Message) (s : Str) : Prop :=
  (∀ {rest r : Str} {evs : List MessageEvent}, Clean rest → many0 (ev syn) rest = .ok evs r →
    ∃ evs', many0 (ev syn) (s ++ rest) = .ok evs' r ∧
      evs'.foldl MessageEvent.apply { name := m.name, fields := [] } = evs.foldl MessageEvent.apply m) ∧
  (∀ {rest : Str}, Clean rest → many0 (ev syn) rest = .panic → many0 (ev syn) (s ++ rest) = .panic)

/-- One more statement. -/
theorem body_step {m m' : Message} {s g t : Str} {e : MessageEvent} (ih : Body syn m s)
    (hg : Gap g) (ht : t ≠ []) (hh : Head NameChar t) (he : ∀ rest, Clean rest → ev syn (t ++ rest) = .ok e rest)
    (hm : e.apply m = m') (hname : m'.name = m.name) : Body syn m' (s ++ g ++ t) := by
  constructor
  · intro rest r evs hc h
    have e1 : s ++ g ++ t ++ rest = s ++ (g ++ (t ++ rest)) := by simp only [List.append_assoc]
    rw [e1, hname]
    have hc2 := name_clean (r := rest) ht hh hg
    rcases many_step hg (fun x hg hx => ev_gap (syn := syn) hg hx) (Head.left ht (hh.mono fun _ hc => hc.stop)) ht (he rest hc) h with h3 | h3
    · obtain ⟨evs', h4, h5⟩ := ih.1 hc2 h3
      exact ⟨evs', h4, by rw [h5, List.foldl_cons, hm]⟩
    · obtain ⟨evs', h4, h5⟩ := ih.1 hc2 h3
      exact ⟨evs', h4, by rw [h5, List.foldl_cons, List.foldl_cons]; exact congrArg (fun m => evs.foldl MessageEvent.apply m) hm⟩
  · intro rest hc h
    have e1 : s ++ g ++ t ++ rest = s ++ (g ++ (t ++ rest)) := by simp only [List.append_assoc]
    rw [e1]
    exact ih.2 (name_clean (r := rest) ht hh hg) (many_panic hg (fun x hg hx => ev_gap (syn := syn) hg hx)
      (Head.left ht (hh.mono fun _ hc => hc.stop)) ht (he rest hc) h)

theorem field_head {f : Field} {t : Str} (h : FieldText syn f t) : t ≠ [] ∧ Head NameChar t := by
  obtain ⟨n, x, e, h1, _, _, h2⟩ := field_first h []
  rw [List.append_nil] at e
  subst e
  refine ⟨by simp [h2], Head.left h2 fun c hc => h1 c ?_⟩
  cases n with
  | nil => cases hc
  | cons d ds => cases hc; simp

theorem lit_head {c : Char} {k t : Str} (h : NameChar c) : (c :: k) ++ t ≠ [] ∧ Head NameChar ((c :: k) ++ t) :=
  ⟨by simp, Head.cons h⟩

theorem option_head {t : Str} (h : OptionText t) : t ≠ [] ∧ Head NameChar t := by
  cases h <;> exact ⟨by simp, Head.cons (by unfold NameChar; decide)⟩

/-- A message, given that its statements are read. -/
theorem message_of_body {m : Message} {g1 g2 b g3 e r : Str} (h1 : Gap1 g1) (hn : Word m.name) (h2 : Gap g2)
    (hb : Body syn m b)
    (h3 : Gap g3) (he : SemiText e) (hr : Clean r) :
    message syn (c! "message" ++ (g1 ++ (m.name ++ (g2 ++ (c! "{" ++ (b ++ (g3 ++ (c! "}" ++ (e ++ r))))))))) = .ok m r := by
  have hbody : ∃ evs, many0 (ev syn) (b ++ (g3 ++ (c! "}" ++ (e ++ r)))) = .ok evs (c! "}" ++ (e ++ r)) ∧
      buildMessage m.name evs = m := by
    have hc : Clean (g3 ++ (c! "}" ++ (e ++ r))) := clean_gap h3 (Head.lit (by decide)) (by simp)
    rcases many_end (p := ev syn) (x := c! "}" ++ (e ++ r)) h3 (fun hg => ev_gap hg (Head.lit (by decide))) ev_brace with h | h
    · exact hb.1 hc h
    · exact hb.1 hc h
  obtain ⟨evs, h4, h5⟩ := hbody
  rw [message_eq]
  refine (map_ok (terminated_ok (pair_ok (delimited_ok (pair_ok (tok_ok _ _) (gap1_ok h1 hn.stop))
    (word_ok hn (Gap.headP h2 (fun _ => noWord_gap) (Head.cons (by decide)))) (gap0_ok h2 (Head.cons (by decide))))
    (delimited_ok (tok_ok _ _) h4 (tok_ok _ _))) (semi_ok he hr))).trans ?_
  simp only [h5]

theorem body_ok {m : Message} {s : Str} (h : BodyText syn m s) : Body syn m s := by
  induction h with
  | nil => exact ⟨fun {rest r evs} _ h => ⟨evs, h, rfl⟩, fun {rest} _ h => h⟩
  | field _ hg hf ih =>
    exact body_step ih hg (field_head hf).1 (field_head hf).2 (fun rest _ => ev_field hf) rfl rfl
  | oneof _ hg ho ih =>
    refine body_step ih hg ?_ ?_ (fun rest _ => ev_oneof ho) rfl rfl
    · cases ho; simp
    · cases ho; exact Head.cons (by unfold NameChar; decide)
  | enum _ hg he ih =>
    refine body_step ih hg ?_ ?_ (fun rest hc => ev_enum he hc) rfl rfl
    · cases he; simp
    · cases he; exact Head.cons (by unfold NameChar; decide)
  | @message m n s g g1 g2 b g3 e _ hg h1 hn h2 _ h3 he ih ihn =>
    refine body_step (e := .message n) (t := c! "message" ++ g1 ++ n.name ++ g2 ++ c! "{" ++ b ++ g3 ++ c! "}" ++ e) ih hg (by simp) (Head.cons (by unfold NameChar; decide)) (fun rest hc => ?_) rfl rfl
    have := message_of_body (r := rest) h1 hn h2 ihn h3 he hc
    have e2 : c! "message" ++ g1 ++ n.name ++ g2 ++ c! "{" ++ b ++ g3 ++ c! "}" ++ e ++ rest =
      c! "message" ++ (g1 ++ (n.name ++ (g2 ++ (c! "{" ++ (b ++ (g3 ++ (c! "}" ++ (e ++ rest)))))))) := by
      simp only [List.append_assoc]
    rw [e2]
    exact ev_message h1 hn h2 this
  | @reservedNums m l s g g1 t g2 _ hg _ h1 ht h2 ih =>
    refine body_step (e := .reservedNums l) (t := c! "reserved" ++ g1 ++ t ++ g2 ++ c! ";") ih hg (by simp) (Head.cons (by unfold NameChar; decide)) (fun rest hc => ?_) rfl rfl
    simp only [List.append_assoc]
    exact ev_nums h1 ht h2
  | @reservedNames m l s g g1 t g2 _ hg _ h1 ht h2 ih =>
    refine body_step (e := .reservedNames l) (t := c! "reserved" ++ g1 ++ t ++ g2 ++ c! ";") ih hg (by simp) (Head.cons (by unfold NameChar; decide)) (fun rest hc => ?_) rfl rfl
    simp only [List.append_assoc]
    exact ev_names h1 ht h2
  | extensions _ hg ht ih =>
    refine body_step ih hg ?_ ?_ (fun rest hc => ev_extensions ht) rfl rfl
    · cases ht; simp
    · cases ht; exact Head.cons (by unfold NameChar; decide)
  | option _ hg ht ih =>
    exact body_step ih hg (option_head ht).1 (option_head ht).2 (fun rest hc => ev_option ht) rfl rfl

theorem message_ok {m : Message} {t r : Str} (h : MessageText syn m t) (hr : Clean r) : message syn (t ++ r) = .ok m r := by
  cases h with
  | @mk g1 g2 b g3 e h1 hn h2 hb h3 he =>
    have e2 : c! "message" ++ g1 ++ m.name ++ g2 ++ c! "{" ++ b ++ g3 ++ c! "}" ++ e ++ r =
      c! "message" ++ (g1 ++ (m.name ++ (g2 ++ (c! "{" ++ (b ++ (g3 ++ (c! "}" ++ (e ++ r)))))))) := by
      simp only [List.append_assoc]
    rw [e2]
    exact message_of_body h1 hn h2 (body_ok hb) h3 he hr

end

end QP.Pbrs.Grammar
