import Verif.Spec.Printer
/-!
# What is printed is a text of the schema
-/

set_option linter.unusedVariables false

namespace QP.Pbrs.Grammar
open Parse (File RpcFunction RpcService Extend)

theorem decimal_text (n : Nat) : Decimal n (decimal n) := by
  induction n using Nat.strongRecOn with
  | _ n ih =>
    rw [decimal]
    split
    · rename_i h; exact .digit h
    · rename_i h
      have := Decimal.more (d := n % 10) (ih (n / 10) (by omega)) (by omega)
      rwa [show 10 * (n / 10) + n % 10 = n by omega] at this

theorem space : Gap1 (c! " ") := ⟨.blank (by unfold Blank; decide) .nil, by simp⟩

theorem newline : Gap1 (c! "\n") := ⟨.blank (by unfold Blank; decide) .nil, by simp⟩

theorem lookup_mem {α β : Type} [BEq α] [LawfulBEq α] {l : List (α × β)} {a : α} {b : β} (h : l.lookup a = some b) : (a, b) ∈ l := by
  induction l with
  | nil => cases h
  | cons p l ih =>
    rw [List.lookup_cons] at h
    split at h
    · rename_i e
      cases h
      rw [eq_of_beq e]
      exact List.mem_cons_self
    · exact List.mem_cons_of_mem _ (ih h)

theorem scalar_text {t : FieldType} (h : (scalars.lookup t).isSome = true) : TypeText t ((scalars.lookup t).getD []) := by
  obtain ⟨k, hk⟩ := Option.isSome_iff_exists.mp h
  rw [hk]
  exact .scalar (lookup_mem hk)

theorem type_text (t : FieldType) (h : PrintableType t) : TypeText t (printType t) := by
  induction t with
  | messageOrEnum n => exact .name h.1 h.2.1 h.2.2
  | map k v ihk ihv =>
    have := TypeText.map (g1 := []) (g2 := []) (g3 := []) (g4 := c! " ") (g5 := []) (ihk h.1) (ihv h.2) .nil .nil .nil space.1 .nil
    simpa [printType] using this
  | _ => exact scalar_text h

theorem option_text {k v t : Str} {kvs : List (Str × Str)} (hk : Word k) (hv : Value v) (h : OptionsText kvs t) :
    OptionsText ((k, v) :: kvs) (printOption k v ++ t) := by
  have := OptionsText.cons (g1 := []) (g2 := c! " ") (g3 := c! " ") (b := []) hk hv .nil space.1 space.1 (fun c hc => by cases hc) h
  simpa [printOption] using this

theorem options_text {kvs : List (Str × Str)} (h : ∀ p ∈ kvs, Word p.1 ∧ Value p.2) :
    OptionsText kvs (kvs.map fun p => printOption p.1 p.2).flatten := by
  induction kvs with
  | nil => exact .nil
  | cons p kvs ih => exact option_text (h p (by simp)).1 (h p (by simp)).2 (ih fun q hq => h q (by simp [hq]))

theorem bool_value (b : Bool) : Value (boolText b) := by
  cases b
  · exact ⟨by decide, ⟨'f', rfl, by unfold Visible; decide, by decide⟩, ⟨'e', rfl, by unfold Visible; decide⟩⟩
  · exact ⟨by decide, ⟨'t', rfl, by unfold Visible; decide, by decide⟩, ⟨'e', rfl, by unfold Visible; decide⟩⟩

theorem quoted_value {d : Str} (h : ']' ∉ d) : Value (c! "\"" ++ d ++ c! "\"") := by
  refine ⟨?_, ⟨'"', rfl, by unfold Visible; decide, by decide⟩, ⟨'"', List.getLast?_concat, by unfold Visible; decide⟩⟩
  simp only [List.mem_append, not_or]
  exact ⟨⟨by decide, h⟩, by decide⟩

theorem keyWord {c : Char} {cs : Str} (h : c.isAlpha = true) (h2 : cs.all Char.isAlphanum = true) : Word (c :: cs) :=
  ⟨c, cs, rfl, Or.inl h, fun d hd => Or.inl (List.all_eq_true.mp h2 d hd)⟩

section
variable {syn : Syntax}

theorem fieldOptions_ok {f : Field} (h : PrintableField syn f) : ∀ p ∈ fieldOptions syn f, Word p.1 ∧ Value p.2 := by
  intro p hp
  unfold fieldOptions at hp
  rcases List.mem_append.mp hp with hp | hp
  · rcases List.mem_append.mp hp with hp | hp
    · split at hp
      · cases hp
      · rw [List.mem_singleton] at hp; subst hp
        exact ⟨keyWord (by decide) (by decide), bool_value _⟩
    · split at hp
      · rw [List.mem_singleton] at hp; subst hp
        exact ⟨keyWord (by decide) (by decide), bool_value true⟩
      · cases hp
  · split at hp
    · cases hp
    · rename_i d hd
      rw [List.mem_singleton] at hp; subst hp
      have := h.default d hd
      refine ⟨keyWord (by decide) (by decide), ?_⟩
      simp only
      split
      · rename_i hq
        rw [if_pos hq] at this
        exact quoted_value this.2
      · rename_i hq
        rw [if_neg hq] at this
        exact this

theorem hasOptions {f : Field} (h : PrintableField syn f) : HasOptions syn f (fieldOptions syn f) := by
  have n1 : (c! "packed" == c! "deprecated") = false := by decide
  have n2 : (c! "packed" == c! "default") = false := by decide
  have n3 : (c! "deprecated" == c! "default") = false := by decide
  have n4 : (c! "deprecated" == c! "packed") = false := by decide
  have n5 : (c! "default" == c! "packed") = false := by decide
  have n6 : (c! "default" == c! "deprecated") = false := by decide
  constructor
  · unfold fieldOptions
    cases f.packed <;> cases f.deprecated <;> cases f.default <;> simp [List.lookup]
  · unfold fieldOptions
    cases f.packed <;> cases f.deprecated <;> cases f.default <;> simp [List.lookup]
  · cases hd : f.default with
    | none =>
      left
      refine ⟨?_, rfl⟩
      unfold fieldOptions
      rw [hd]
      cases f.packed <;> cases f.deprecated <;> simp [List.lookup]
    | some d =>
      right
      refine ⟨(if quotes syn f then c! "\"" ++ d ++ c! "\"" else d), d, ?_, rfl, ?_⟩
      · unfold fieldOptions
        rw [hd]
        cases f.packed <;> cases f.deprecated <;> simp [List.lookup]
      · have := h.default d hd
        by_cases hq : quotes syn f
        · rw [if_pos hq] at this
          simp only [if_pos hq]
          have hq' := hq
          unfold quotes at hq'
          rw [if_pos hq']
          exact Or.inl ⟨rfl, this.1⟩
        · simp only [if_neg hq]
          have hq' := hq
          unfold quotes at hq'
          rw [if_neg hq']
          trivial

theorem unlabelled_text {f : Field} (h : PrintableField syn f) : UnlabelledText syn f (printUnlabelled syn f) := by
  have hn := h.number
  have := UnlabelledText.mk (syn := syn) (f := f) (g1 := c! " ") (g2 := c! " ") (g3 := c! " ") (g4 := c! " ") (g5 := [])
    (type_text _ h.typ) space h.name space.1 space.1 (decimal_text f.number.toNat) (by omega) (by omega) space.1
    (options_text (fieldOptions_ok h)) (hasOptions h) .nil h.boxed
  simpa [printUnlabelled] using this

theorem label_text {b : Bool} {q : Frequency} (h : q ∈ frequencies syn b) : LabelText syn b q (printLabel q) := by
  cases syn <;> cases b <;> simp only [frequencies, List.mem_cons, List.not_mem_nil, or_false] at h
  · rcases h with rfl | rfl | rfl
    · exact .optional2 space
    · exact .repeated2 space
    · exact .required2 space
  · subst h; exact .map2
  · rcases h with rfl | rfl | rfl
    · exact .none3
    · exact .optional3 space
    · exact .repeated3 space
  · subst h; exact .map3

theorem field_text {f : Field} (h : PrintableMember syn f) : FieldText syn f (printField syn f) :=
  ⟨_, _, rfl, label_text h.2, unlabelled_text h.1⟩

theorem many_text {α : Type} {T : α → Str → Prop} {p : α → Str} {l : List α} (h : ∀ a ∈ l, T a (p a)) :
    ManyText T l (printLines p l) := by
  induction l with
  | nil => exact .nil
  | cons a l ih =>
    have := ManyText.cons newline.1 (h a (by simp)) (ih fun b hb => h b (by simp [hb]))
    simpa [printLines] using this

theorem oneof_text {o : OneOf} (h : PrintableOneOf syn o) : OneOfText syn o (printOneOf syn o) := by
  have := OneOfText.mk (syn := syn) (name := o.name) (g1 := c! " ") (g2 := c! " ") (g3 := c! "\n") (fs := o.fields) space h.name space.1
    (many_text (p := printUnlabelled syn) fun f hf => ⟨(h.fields f hf).2, unlabelled_text (h.fields f hf).1⟩) h.ne newline.1
  rw [h.plain]
  simpa [printOneOf] using this

theorem enumBody_text {l l' : List (Str × Int)} {s : Str} (hs : EnumBody l s) (h : ∀ v ∈ l', Word v.1 ∧ 0 ≤ v.2 ∧ v.2 < 2 ^ 31) :
    EnumBody (l ++ l') (s ++ printLines (fun v : Str × Int => v.1 ++ c! " = " ++ decimal v.2.toNat ++ c! ";") l') := by
  induction l' generalizing l s with
  | nil => simpa [printLines] using hs
  | cons v l' ih =>
    obtain ⟨h1, h2, h3⟩ := h v (by simp)
    have := EnumBody.value (g := c! "\n") (g1 := c! " ") (g2 := c! " ") (t := []) hs newline.1 h1 space.1 space.1
      (Or.inl (decimal_text v.2.toNat)) (by omega) (.gap .nil)
    have hv : (v.1, ((v.2.toNat : Nat) : Int)) = v := by
      obtain ⟨a, b⟩ := v
      simp only at h2 ⊢
      rw [Int.toNat_of_nonneg h2]
    rw [hv] at this
    have := ih this fun w hw => h w (by simp [hw])
    simpa [printLines] using this

theorem enum_text {e : Enumerator} (h : PrintableEnum e) : EnumText e (printEnum e) := by
  have := EnumText.mk (name := e.name) (g1 := c! " ") (g2 := c! " ") (g3 := c! "\n") (e := []) space h.name space.1
    (enumBody_text .nil h.fields) newline.1 (Or.inl rfl)
  rw [h.plain]
  simpa [printEnum] using this

theorem ranges_text {l : List Int} (hne : l ≠ []) (h : ∀ n ∈ l, 0 ≤ n ∧ n < 2 ^ 31) :
    RangesText l (printList (fun n => decimal n.toNat) l) := by
  induction l with
  | nil => exact absurd rfl hne
  | cons a l ih =>
    have ha := h a (by simp)
    have h1 := RangeText.one (decimal_text a.toNat) (by omega)
    rw [Int.toNat_of_nonneg ha.1] at h1
    cases l with
    | nil => exact .one h1
    | cons b l =>
      have := RangesText.more (g1 := []) (g2 := c! " ") h1 .nil space.1 (ih (by simp) fun n hn => h n (by simp [hn]))
      simpa [printList] using this

theorem names_text {l : List Str} (hne : l ≠ []) (h : ∀ n ∈ l, '"' ∉ n) :
    NamesText l (printList (fun n => c! "\"" ++ n ++ c! "\"") l) := by
  induction l with
  | nil => exact absurd rfl hne
  | cons a l ih =>
    have ha := h a (by simp)
    cases l with
    | nil => exact .one ha
    | cons b l =>
      have := NamesText.more (g1 := []) (g2 := c! " ") ha .nil space.1 (ih (by simp) fun n hn => h n (by simp [hn]))
      simpa [printList] using this

/-! ## Messages -/

theorem body_fields {m : Message} {s : Str} {l : List Field} (hs : BodyText syn m s) (h : ∀ f ∈ l, PrintableMember syn f) :
    BodyText syn { m with fields := m.fields ++ l } (s ++ printLines (printField syn) l) := by
  induction l generalizing m s with
  | nil => first | (cases m; simpa [printLines] using hs) | (cases F; simpa [printLines] using hs)
  | cons f l ih =>
    have := ih (.field hs newline.1 (field_text (h f (by simp)))) fun g hg => h g (by simp [hg])
    simpa [printLines] using this

theorem body_oneofs {m : Message} {s : Str} {l : List OneOf} (hs : BodyText syn m s) (h : ∀ f ∈ l, PrintableOneOf syn f) :
    BodyText syn { m with oneofs := m.oneofs ++ l } (s ++ printLines (printOneOf syn) l) := by
  induction l generalizing m s with
  | nil => first | (cases m; simpa [printLines] using hs) | (cases F; simpa [printLines] using hs)
  | cons f l ih =>
    have := ih (.oneof hs newline.1 (oneof_text (h f (by simp)))) fun g hg => h g (by simp [hg])
    simpa [printLines] using this

theorem body_enums {m : Message} {s : Str} {l : List Enumerator} (hs : BodyText syn m s) (h : ∀ f ∈ l, PrintableEnum f) :
    BodyText syn { m with enums := m.enums ++ l } (s ++ printLines printEnum l) := by
  induction l generalizing m s with
  | nil => first | (cases m; simpa [printLines] using hs) | (cases F; simpa [printLines] using hs)
  | cons f l ih =>
    have := ih (.enum hs newline.1 (enum_text (h f (by simp)))) fun g hg => h g (by simp [hg])
    simpa [printLines] using this

theorem body_reserved {m : Message} {s : Str} {nums : Option (List Int)} {names : Option (List Str)} (hs : BodyText syn m s)
    (h1 : m.reservedNums = none) (h2 : m.reservedNames = none)
    (hn : ∀ l, nums = some l → l ≠ [] ∧ ∀ n ∈ l, 0 ≤ n ∧ n < 2 ^ 31)
    (hm : ∀ l, names = some l → l ≠ [] ∧ ∀ n ∈ l, '"' ∉ n) :
    BodyText syn { m with reservedNums := nums, reservedNames := names } (s ++ printReserved nums names) := by
  have step1 : BodyText syn { m with reservedNums := nums } (s ++ printNums nums) := by
    cases nums with
    | none =>
      have e : ({ m with reservedNums := none } : Message) = m := by cases m; simp only at h1; rw [h1]
      rw [e]; simpa [printNums] using hs
    | some l =>
      obtain ⟨h3, h4⟩ := hn l rfl
      have := BodyText.reservedNums (g2 := []) hs newline.1 h1 space (ranges_text h3 h4) .nil
      simpa [printNums] using this
  unfold printReserved
  rw [← List.append_assoc]
  cases names with
  | none =>
    have e : ({ m with reservedNums := nums, reservedNames := none } : Message) = { m with reservedNums := nums } := by
      cases m; simp only at h2; rw [h2]
    rw [e]
    simpa [printNames] using step1
  | some l =>
    obtain ⟨h3, h4⟩ := hm l rfl
    have := BodyText.reservedNames (g2 := []) step1 newline.1 (by exact h2) space (names_text h3 h4) .nil
    simpa [printNames] using this

mutual
theorem message_text : ∀ (m : Message), PrintableMessage syn m →
    ∃ b, BodyText syn m b ∧ printMessage syn m = c! "message " ++ m.name ++ c! " {" ++ b ++ c! "\n}"
  | ⟨name, fields, oneofs, nums, names, imported, pkg, messages, enums, module, index⟩, h => by
    cases h with
    | mk hn hf ho he hm hr1 hr2 hp =>
      simp only [Message.mk.injEq, true_and] at hp
      obtain ⟨rfl, rfl, rfl, rfl⟩ := hp
      have b1 := body_fields (m := { name := name, fields := [] }) .nil hf
      have b2 := body_oneofs b1 ho
      have b3 := body_enums b2 he
      have b4 := messages_text messages hm _ _ b3
      have b5 := body_reserved b4 rfl rfl hr1 hr2
      refine ⟨_, by simpa using b5, ?_⟩
      simp only [printMessage]
      simp
theorem messages_text : ∀ (l : List Message), (∀ n ∈ l, PrintableMessage syn n) → ∀ (m : Message) (s : Str), BodyText syn m s →
    BodyText syn { m with messages := m.messages ++ l } (s ++ printMessages syn l)
  | [], _, m, s, hs => by cases m; simpa [printMessages] using hs
  | n :: l, h, m, s, hs => by
    obtain ⟨b, hb, e⟩ := message_text n (h n (by simp))
    have hname : Word n.name := by
      cases h n (by simp) with
      | mk h => exact h
    have h1 := BodyText.message (g := c! "\n") (g1 := c! " ") (g2 := c! " ") (g3 := c! "\n") (e := []) hs newline.1 space hname space.1 hb
      newline.1 (Or.inl rfl)
    have := messages_text l (fun x hx => h x (by simp [hx])) _ _ h1
    simp only [printMessages, e]
    simpa using this
end

theorem messageText {m : Message} (h : PrintableMessage syn m) : MessageText syn m (printMessage syn m) := by
  obtain ⟨b, hb, e⟩ := message_text m h
  have hname : Word m.name := by
    cases h with
    | mk h => exact h
  rw [e]
  have := MessageText.mk (g1 := c! " ") (g2 := c! " ") (g3 := c! "\n") (e := []) space hname space.1 hb newline.1 (Or.inl rfl)
  simpa using this

/-! ## Files -/

theorem rpc_text {f : RpcFunction} (h : Word f.name ∧ Word f.arg ∧ Word f.ret) : RpcText f (printRpc f) := by
  have := RpcText.mk (g1 := c! " ") (g2 := c! " ") (g3 := []) (g4 := []) (g5 := c! " ") (g6 := c! " ") (g7 := []) (g8 := []) (g9 := [])
    (e := c! ";") space h.1 space.1 .nil h.2.1 .nil space space.1 .nil h.2.2 .nil .nil (Or.inl rfl)
  simpa [printRpc] using this

theorem service_text {s : RpcService} (h : Word s.name ∧ ∀ f ∈ s.functions, Word f.name ∧ Word f.arg ∧ Word f.ret) :
    ServiceText s (printService s) := by
  have := ServiceText.mk (name := s.name) (g1 := c! " ") (g2 := c! " ") (g3 := []) space h.1 space.1
    (many_text (p := printRpc) (l := s.functions) fun f hf => rpc_text (h.2 f hf)) .nil (fun _ => rfl)
  simpa [printService] using this

theorem extend_text {e : Extend} (h : Name e.name ∧ e.fields ≠ [] ∧ ∀ f ∈ e.fields, PrintableMember syn f) :
    ExtendText syn e (printExtend syn e) := by
  have := ExtendText.mk (syn := syn) (name := e.name) (g1 := c! " ") (g2 := c! " ") (g3 := []) (e := []) space h.1 space.1
    (many_text (p := printField syn) (l := e.fields) fun f hf => field_text (h.2.2 f hf)) h.2.1 .nil (Or.inl rfl)
  simpa [printExtend] using this

theorem st_imports {F : File} {s : Str} {l : List Str} (hs : StatementsText syn F s) (h : ∀ p ∈ l, '"' ∉ p) :
    StatementsText syn { F with imports := F.imports ++ l } (s ++ printLines (fun p => c! "import \"" ++ p ++ c! "\";") l) := by
  induction l generalizing F s with
  | nil => first | (cases m; simpa [printLines] using hs) | (cases F; simpa [printLines] using hs)
  | cons p l ih =>
    have := ih (.import_ (g2 := []) hs newline.1 space (h p (by simp)) .nil) fun g hg => h g (by simp [hg])
    simpa [printLines] using this

theorem st_enums {F : File} {s : Str} {l : List Enumerator} (hs : StatementsText syn F s) (h : ∀ e ∈ l, PrintableEnum e) :
    StatementsText syn { F with desc := { F.desc with enums := F.desc.enums ++ l } } (s ++ printLines printEnum l) := by
  induction l generalizing F s with
  | nil => first | (cases m; simpa [printLines] using hs) | (cases F; simpa [printLines] using hs)
  | cons p l ih =>
    have := ih (.enum hs newline.1 (enum_text (h p (by simp)))) fun g hg => h g (by simp [hg])
    simpa [printLines] using this

theorem st_messages {F : File} {s : Str} {l : List Message} (hs : StatementsText syn F s) (h : ∀ e ∈ l, PrintableMessage syn e) :
    StatementsText syn { F with desc := { F.desc with messages := F.desc.messages ++ l } } (s ++ printMessages syn l) := by
  induction l generalizing F s with
  | nil => cases F; simpa [printMessages] using hs
  | cons p l ih =>
    have := ih (.message hs newline.1 (messageText (h p (by simp)))) fun g hg => h g (by simp [hg])
    simpa [printMessages] using this

theorem st_services {F : File} {s : Str} {l : List RpcService} (hs : StatementsText syn F s)
    (h : ∀ s ∈ l, Word s.name ∧ ∀ f ∈ s.functions, Word f.name ∧ Word f.arg ∧ Word f.ret) :
    StatementsText syn { F with services := F.services ++ l } (s ++ printLines printService l) := by
  induction l generalizing F s with
  | nil => first | (cases m; simpa [printLines] using hs) | (cases F; simpa [printLines] using hs)
  | cons p l ih =>
    have := ih (.service hs newline.1 (service_text (h p (by simp)))) fun g hg => h g (by simp [hg])
    simpa [printLines] using this

theorem st_extends {F : File} {s : Str} {l : List Extend} (hs : StatementsText syn F s)
    (h : ∀ e ∈ l, Name e.name ∧ e.fields ≠ [] ∧ ∀ f ∈ e.fields, PrintableMember syn f) :
    StatementsText syn { F with extends_ := F.extends_ ++ l } (s ++ printLines (printExtend syn) l) := by
  induction l generalizing F s with
  | nil => first | (cases m; simpa [printLines] using hs) | (cases F; simpa [printLines] using hs)
  | cons p l ih =>
    have := ih (.extend hs newline.1 (extend_text (h p (by simp)))) fun g hg => h g (by simp [hg])
    simpa [printLines] using this

theorem st_pkg {F : File} {s p : Str} (hs : StatementsText syn F s) (hF : F.desc.package = []) (hp : p = [] ∨ Name p) :
    StatementsText syn { F with desc := { F.desc with package := p } } (s ++ if p = [] then [] else c! "\npackage " ++ p ++ c! ";") := by
  split
  · rename_i h
    subst h
    have e : ({ F with desc := { F.desc with package := [] } } : File) = F := by
      rw [← hF]
    rw [e, List.append_nil]
    exact hs
  · rename_i h
    have := StatementsText.package (g2 := []) hs newline.1 space (hp.resolve_left h) .nil
    simpa using this

end

theorem file_text {F : File} (h : PrintableFile F) : FileText F (printFile F) := by
  obtain ⟨d, imports, services, extends_⟩ := F
  obtain ⟨package, syn, messages, enums, module, owned⟩ := d
  obtain ⟨h1, h2, h3, h4, h5, h6, h7, h8⟩ := h
  simp only at h1 h2 h3 h4 h5 h6 h7 h8
  subst h7 h8
  have s1 := st_imports (syn := syn) .nil h1
  have s2 := st_pkg s1 rfl h2
  have s3 := st_enums s2 h3
  have s4 := st_messages s3 h4
  have s5 := st_services s4 h5
  have s6 := st_extends s5 h6
  simp only [List.nil_append] at s6
  have hsyn : SyntaxText syn (printSyntax syn) := by
    cases syn
    · exact .proto2 (g3 := []) space.1 space.1 .nil
    · exact .proto3 (g3 := []) space.1 space.1 .nil
  have := FileText.stated (g := c! "\n") hsyn s6 (Or.inl newline.1) (by simp)
  exact this

end QP.Pbrs.Grammar
