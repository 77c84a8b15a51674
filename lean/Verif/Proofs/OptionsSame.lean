import Verif.Proofs.OptionsGen
import Verif.Spec.Options
import Verif.Proofs.Ready
import Verif.Proofs.Links
set_option linter.unusedVariables false
/-!
# Options: two compilations describe the same functions
-/

namespace QP.Pbrs

/-! ## Messages without fields -/

mutual
theorem unit_of_empty : ∀ (m : Message), (∀ is x, m.descend is = some x → x.fields = [] ∧ x.oneofs = []) → m.isUnit = true
  | ⟨name, fields, oneofs, nums, names, imported, pkg, messages, enums, module, index⟩, h => by
    obtain ⟨h1, h2⟩ := h [] _ rfl
    have h1 : fields = [] := h1
    have h2 : oneofs = [] := h2
    subst h1 h2
    simp only [Message.isUnit, List.isEmpty_nil, Bool.true_and]
    exact units_of_empty messages fun k m' hk is x hx => h (k :: is) x (by
      simp only [Message.descend, hk]
      exact hx)
theorem units_of_empty : ∀ (ms : List Message), (∀ (k : Nat) (m : Message), ms[k]? = some m → ∀ (is : List Nat) (x : Message), m.descend is = some x → x.fields = [] ∧ x.oneofs = []) → Message.allUnit ms = true
  | [], _ => rfl
  | m :: ms, h => by
    simp only [Message.allUnit, Bool.and_eq_true]
    exact ⟨unit_of_empty m (h 0 m rfl), units_of_empty ms fun k m' hk => h (k + 1) m' hk⟩
end

theorem allUnit_get {ms : List Message} (h : Message.allUnit ms = true) {k : Nat} {m : Message} (hk : ms[k]? = some m) : m.isUnit = true := by
  induction ms generalizing k with
  | nil => cases hk
  | cons x ms ih =>
    simp only [Message.allUnit, Bool.and_eq_true] at h
    cases k with
    | zero => cases hk; exact h.1
    | succ k => exact ih h.2 hk

theorem empty_of_unit {m : Message} (h : m.isUnit = true) {is : List Nat} {x : Message} (hx : m.descend is = some x) : x.fields = [] ∧ x.oneofs = [] := by
  induction is generalizing m with
  | nil =>
    cases hx
    cases x
    simp only [Message.isUnit, Bool.and_eq_true, List.isEmpty_iff] at h
    exact ⟨h.1.1, h.1.2⟩
  | cons k is ih =>
    obtain ⟨m', hk, hx⟩ := Option.bind_eq_some_iff.mp hx
    refine ih ?_ hx
    cases m
    simp only [Message.isUnit, Bool.and_eq_true] at h
    exact allUnit_get h.2 hk

theorem descend_descend (ks : List Nat) : ∀ (t m : Message) (is : List Nat), t.descend ks = some m → t.descend (ks ++ is) = m.descend is := by
  induction ks with
  | nil => intro t m is h; cases h; rfl
  | cons k ks ih =>
    intro t m is h
    simp only [Message.descend, List.cons_append] at h ⊢
    obtain ⟨t', ht', h⟩ := Option.bind_eq_some_iff.mp h
    rw [ht']
    exact ih t' m is h

theorem getMessage_descend {D : FileDescriptor} {i : MessageIndex} {m : Message} (h : D.getMessage i = some m) (is : List Nat) :
    D.getMessage (i ++ is) = m.descend is := by
  cases i with
  | nil => cases h
  | cons k ks =>
    simp only [FileDescriptor.getMessage, List.cons_append] at h ⊢
    obtain ⟨t, ht, h⟩ := Option.bind_eq_some_iff.mp h
    rw [ht]
    simp only [Option.bind_some]
    exact descend_descend ks t m is h

theorem unit_via {M E : FileDescriptor} {H : MessageIndex → Field → Field} (h : Via M E H) {i : MessageIndex} {m m' : Message}
    (hm : M.getMessage i = some m) (hm' : E.getMessage i = some m') : m'.isUnit = m.isUnit := by
  rw [Bool.eq_iff_iff]
  constructor
  · intro hu
    refine unit_of_empty m fun is x hx => ?_
    rw [← getMessage_descend hm] at hx
    obtain ⟨x', hx', e1, e2, _⟩ := h.message_fwd hx
    rw [getMessage_descend hm'] at hx'
    obtain ⟨f1, f2⟩ := empty_of_unit hu hx'
    rw [f1] at e1
    rw [f2] at e2
    exact ⟨List.map_eq_nil_iff.mp e1.symm, List.map_eq_nil_iff.mp e2.symm⟩
  · intro hu
    refine unit_of_empty m' fun is x hx => ?_
    rw [← getMessage_descend hm'] at hx
    obtain ⟨x', hx', e1, e2, _⟩ := h.message hx
    rw [getMessage_descend hm] at hx'
    obtain ⟨f1, f2⟩ := empty_of_unit hu hx'
    rw [f1] at e1
    rw [f2] at e2
    exact ⟨e1, List.map_eq_nil_iff.mp e2⟩

/-! ## Enums -/

/-- The numbers of an enum. -/
theorem enum_same {E₁ E₂ D : FileDescriptor} {b₁ b₂ : Bool} {path₁ path₂ : FileDescriptor → FieldType → Str} {cfg₁ cfg₂ : Config}
    (h₁ : (D.own b₁).compile path₁ cfg₁ = .ok E₁) (h₂ : (D.own b₂).compile path₂ cfg₂ = .ok E₂) (e : EnumIndex) :
    (E₁.getEnum e).map (·.fields) = (E₂.getEnum e).map (·.fields) := by
  obtain ⟨a₁, a₂, _⟩ := compile_shells h₁
  obtain ⟨c₁, c₂, _⟩ := compile_shells h₂
  have key : ∀ {l l' : List Enumerator}, l.map Enumerator.core = l'.map Enumerator.core → ∀ k : Nat, (l[k]?).map (·.fields) = (l'[k]?).map (·.fields) := by
    intro l l' h k
    have := congrArg (fun x : List Enumerator => (x[k]?).map (·.fields)) h
    simpa only [List.getElem?_map, Option.map_map, Function.comp_def, Enumerator.core] using this
  unfold FileDescriptor.getEnum
  split
  · exact key (a₂.trans c₂.symm) _
  · have hs : (E₁.getMessage e.msgIndex).map Message.shell = (E₂.getMessage e.msgIndex).map Message.shell := by
      rw [a₁, c₁, getMessage_own, getMessage_own]
    cases x : E₁.getMessage e.msgIndex with
    | none =>
      cases y : E₂.getMessage e.msgIndex with
      | none => rfl
      | some m' => rw [x, y] at hs; cases hs
    | some m =>
      cases y : E₂.getMessage e.msgIndex with
      | none => rw [x, y] at hs; cases hs
      | some m' =>
        rw [x, y] at hs
        exact key (congrArg Message.enums (Option.some.inj hs)) _

/-! ## The fields, pairwise -/

/-- The same, and their names are the same too. -/
def SameNamed (f g : Field) : Prop := SameField f g ∧ g.name = f.name

/-- Two compilations of a file: the messages are at the same places, and have the same fields. -/
theorem compiled_named {E₁ E₂ D : FileDescriptor} {b₁ b₂ : Bool} {path₁ path₂ : FileDescriptor → FieldType → Str} {cfg₁ cfg₂ : Config}
    (h₁ : (D.own b₁).compile path₁ cfg₁ = .ok E₁) (h₂ : (D.own b₂).compile path₂ cfg₂ = .ok E₂) :
    (∀ i, E₁.getMessage i = none ↔ E₂.getMessage i = none) ∧
    ∀ i m₁ m₂, E₁.getMessage i = some m₁ → E₂.getMessage i = some m₂ → m₁.isUnit = m₂.isUnit ∧
      List.Forall₂ SameNamed m₁.fields m₂.fields ∧ List.Forall₂ (List.Forall₂ SameNamed) (m₁.oneofs.map (·.fields)) (m₂.oneofs.map (·.fields)) := by
  obtain ⟨M, C₁, C₂, F₁, F₂, ⟨x1, x2, x3⟩, ⟨y1, y2, y3⟩, _, _⟩ := compile_middle h₁ h₂
  have v₁ := finish_via x1 x2 x3
  have v₂ := finish_via y1 y2 y3
  have pair : ∀ (i : MessageIndex) (l : List Field), List.Forall₂ SameNamed (l.map fun f => finish (path₁ C₁) cfg₁.dontUseCow (M.syntax_ == .proto3) (i.length == 1) f)
      (l.map fun f => finish (path₂ C₂) cfg₂.dontUseCow (M.syntax_ == .proto3) (i.length == 1) f) := by
    intro i l
    induction l with
    | nil => exact .nil
    | cons f l ih => exact .cons ⟨finish_same _ _ _ _ _ _ f, finish_name _ _ _ _ _ _ f⟩ ih
  refine ⟨fun i => ?_, fun i m₁ m₂ hm₁ hm₂ => ?_⟩
  · have a := v₁.isSome i
    have b := v₂.isSome i
    rw [← Option.isNone_iff_eq_none, ← Option.isNone_iff_eq_none, ← Option.not_isSome, ← Option.not_isSome, a, b]
  · obtain ⟨m, hm, e1, e2, _⟩ := v₁.message hm₁
    obtain ⟨m', hm', f1, f2, _⟩ := v₂.message hm₂
    cases hm.symm.trans hm'
    refine ⟨(unit_via v₁ hm hm₁).trans (unit_via v₂ hm hm₂).symm, ?_, ?_⟩
    · rw [e1, f1]; exact pair i _
    · rw [e2, f2]
      generalize m.oneofs = os
      induction os with
      | nil => exact .nil
      | cons o os ih => exact .cons (pair i o.fields) ih

theorem compiled_pairs {E₁ E₂ D : FileDescriptor} {b₁ b₂ : Bool} {path₁ path₂ : FileDescriptor → FieldType → Str} {cfg₁ cfg₂ : Config}
    (h₁ : (D.own b₁).compile path₁ cfg₁ = .ok E₁) (h₂ : (D.own b₂).compile path₂ cfg₂ = .ok E₂) :
    (∀ i, E₁.getMessage i = none ↔ E₂.getMessage i = none) ∧
    ∀ i m₁ m₂, E₁.getMessage i = some m₁ → E₂.getMessage i = some m₂ → m₁.isUnit = m₂.isUnit ∧
      List.Forall₂ SameField m₁.fields m₂.fields ∧ List.Forall₂ (List.Forall₂ SameField) (m₁.oneofs.map (·.fields)) (m₂.oneofs.map (·.fields)) := by
  obtain ⟨h, k⟩ := compiled_named h₁ h₂
  refine ⟨h, fun i m₁ m₂ e₁ e₂ => ?_⟩
  obtain ⟨a, b, c⟩ := k i m₁ m₂ e₁ e₂
  exact ⟨a, b.imp fun _ _ h => h.1, c.imp fun _ _ h => h.imp fun _ _ h => h.1⟩

end QP.Pbrs

namespace QP.Gen
open QP.Pbrs

theorem forall₂_mono {α β : Type} {R S : α → β → Prop} {l : List α} {l' : List β} (h : List.Forall₂ R l l')
    (hk : ∀ (k : Nat) a b, l[k]? = Option.some a → l'[k]? = Option.some b → R a b → S a b) : List.Forall₂ S l l' := by
  induction h with
  | nil => exact .nil
  | cons h _ ih => exact .cons (hk 0 _ _ rfl rfl h) (ih fun k a b ha hb hr => hk (k + 1) a b ha hb hr)

theorem forall₂_filter {α β : Type} {R : α → β → Prop} {p : α → Bool} {q : β → Bool} {l : List α} {l' : List β} (h : List.Forall₂ R l l')
    (hpq : ∀ a b, R a b → q b = p a) : List.Forall₂ (fun a b => R a b ∧ p a = true) (l.filter p) (l'.filter q) := by
  induction h with
  | nil => exact .nil
  | cons h _ ih =>
    simp only [List.filter_cons, hpq _ _ h]
    split
    · rename_i hp
      exact .cons ⟨h, hp⟩ ih
    · exact ih

theorem forall₂_map {α β γ δ : Type} {R : α → β → Prop} {S : γ → δ → Prop} {p : α → γ} {q : β → δ} {l : List α} {l' : List β} (h : List.Forall₂ R l l')
    (hpq : ∀ a b, R a b → S (p a) (q b)) : List.Forall₂ S (l.map p) (l'.map q) := by
  induction h with
  | nil => exact .nil
  | cons h _ ih => exact .cons (hpq _ _ h) ih

section
variable {C C' : Ctx}

theorem typDefault_same {t t' : FieldType} (h : t.owned = t'.owned) (hE : ∀ e, C.enumNums e = C'.enumNums e)
    (hd : ∀ j, t = .message j → C.dflt j = C'.dflt j) : typDefault C t = typDefault C' t' := by
  rcases sameOwned_iff h with rfl | ⟨rfl, rfl⟩ | ⟨rfl, rfl⟩ | ⟨rfl, rfl⟩ | ⟨rfl, rfl⟩ | ⟨k, v', k', v'', rfl, rfl, _, _⟩
  · cases t <;> simp only [typDefault, hE]
    exact hd _ rfl
  all_goals rfl

theorem fieldDefault_same {f g : Field} (h : SameField f g) (hE : ∀ e, C.enumNums e = C'.enumNums e)
    (hd : ∀ j, f.typ = .message j → C.dflt j = C'.dflt j) (hc : ∀ s s', f.default = Option.some s → g.default = Option.some s' → C.const f.typ s = C'.const g.typ s') :
    fieldDefault C f = fieldDefault C' g := by
  unfold fieldDefault
  have := h.2.2
  cases hf : f.default with
  | none =>
    cases hg : g.default with
    | none => exact typDefault_same h.2.1 hE hd
    | some s => rw [hf, hg] at this; cases this
  | some s =>
    cases hg : g.default with
    | none => rw [hf, hg] at this; cases this
    | some s' => exact hc s s' hf hg

theorem custom_same {D D' : FileDescriptor} {cfg cfg' : Config} {m m' : Message} (hs : D.syntax_ = D'.syntax_)
    (hdep : cfg.addDeprecatedFields = cfg'.addDeprecatedFields) (h : List.Forall₂ SameField m.fields m'.fields) :
    m.mustGenerateImplDefault D cfg = m'.mustGenerateImplDefault D' cfg' := by
  unfold Message.mustGenerateImplDefault
  generalize m.fields = l at h
  generalize m'.fields = l' at h
  induction h with
  | nil => rfl
  | cons h _ ih =>
    simp only [List.any_cons, ih]
    congr 1
    unfold Field.mustGenerateImplDefault Field.hasValidVisibleCustomDefault
    rw [h.visible cfg cfg' hdep, h.frequency, ← same_asMessage h.2.1, ← h.2.2, hs]

theorem slotDefault_same (c : Bool) {f g : Field} (h : SameField f g) (hE : ∀ e, C.enumNums e = C'.enumNums e)
    (hd : f.boxed = false → f.frequency.generated = .singular → ∀ j, f.typ = .message j → C.dflt j = C'.dflt j)
    (hc : ∀ s s', f.default = Option.some s → g.default = Option.some s' → C.const f.typ s = C'.const g.typ s') :
    slotDefault C c (.field f) = slotDefault C' c (.field g) := by
  simp only [slotDefault]
  rw [h.boxed, h.frequency]
  split
  · rfl
  · rename_i hb
    simp only [Bool.or_eq_true, not_or, Bool.not_eq_true] at hb
    cases hg : f.frequency.generated with
    | singular =>
      simp only
      rw [fieldDefault_same h hE (hd hb.1 hg) hc, typDefault_same h.2.1 hE (hd hb.1 hg)]
    | arrayLike =>
      unfold isPackedFixed
      rw [h.isPacked, ← same_fixed h.2.1, ← same_wire h.2.1]
    | map => rfl

end

/-- Contexts whose messages have pairwise the same fields describe the same functions. -/
theorem same_pairs {C C' : Ctx} (hE : ∀ e, C.enumNums e = C'.enumNums e) (hsyn : C.D.syntax_ = C'.D.syntax_)
    (habs' : ∀ i, C.D.getMessage i = Option.none ↔ C'.D.getMessage i = Option.none)
    (hpair' : ∀ i m m', C.D.getMessage i = Option.some m → C'.D.getMessage i = Option.some m' → m.isUnit = m'.isUnit ∧
      List.Forall₂ SameField m.fields m'.fields ∧ List.Forall₂ (List.Forall₂ SameField) (m.oneofs.map (·.fields)) (m'.oneofs.map (·.fields)))
    (hsz : WellFounded (fun j i => Contains C.D i j))
    (hT : C.T = C'.T) (hdep : C.cfg.addDeprecatedFields = C'.cfg.addDeprecatedFields) (hR : RefsOk C.D) (hd : IsDefault C) (hd' : IsDefault C') (hK : SameConstants C C') :
    SameCtx C C' := by
  -- the default values
  have hdef : ∀ i m, C.D.getMessage i = Option.some m → C.dflt i = C'.dflt i := by
    intro i
    refine hsz.induction (C := fun i => ∀ m, C.D.getMessage i = Option.some m → C.dflt i = C'.dflt i) i ?_
    intro i ih m hm
    cases hm' : C'.D.getMessage i with
    | none => rw [(habs' i).mpr hm'] at hm; cases hm
    | some m' =>
      obtain ⟨_, hf, ho⟩ := hpair' i m m' hm hm'
      rw [hd i m hm, hd' i m' hm', custom_same hsyn hdep hf]
      congr 1
      unfold members
      simp only [List.map_append, List.map_map]
      congr 1
      · have h2 : List.Forall₂ (fun f g => SameField f g ∧ (f.visible C.cfg = true → slotDefault C (m'.mustGenerateImplDefault C'.D C'.cfg) (.field f) =
            slotDefault C' (m'.mustGenerateImplDefault C'.D C'.cfg) (.field g))) m.fields m'.fields := by
          refine forall₂_mono hf fun k f g hk hk' h => ⟨h, fun hv => slotDefault_same _ h hE (fun hb hg j hj => ?_) fun s s' hs hs' => hK i m m' k f g s s' hm hm' hk hk' hv hs hs'⟩
          have hfm : f ∈ m.allFields := List.mem_append_left _ (List.mem_of_getElem? hk)
          have hex := (hR i m hm f hfm).1 j (hj ▸ .message)
          obtain ⟨mj, hmj⟩ := Option.isSome_iff_exists.mp hex
          refine ih j ⟨m, f, hm, hfm, hb, ?_, hj, hex⟩ mj hmj
          cases hq : f.frequency <;> rw [hq] at hg <;> first | rfl | cases hg
        have h3 := forall₂_filter (p := fun f => f.visible C.cfg) (q := fun f => f.visible C'.cfg) h2 fun f g h => h.1.visible _ _ hdep
        generalize m.fields.filter (fun f => f.visible C.cfg) = l at h3
        generalize m'.fields.filter (fun f => f.visible C'.cfg) = l' at h3
        induction h3 with
        | nil => rfl
        | cons h _ ih => simp only [List.map_cons, Function.comp_apply, h.1.2 h.2, ih]
      · have hl : m.oneofs.length = m'.oneofs.length := by have := ho.length_eq; simpa using this
        have : ∀ (l : List OneOf) (C : Ctx) (c : Bool), l.map (slotDefault C c ∘ fun o => Member.oneof (o.fields.filter fun f => f.visible C.cfg)) = List.replicate l.length .none := by
          intro l C c
          induction l with
          | nil => rfl
          | cons o l ih => simp only [List.map_cons, ih, List.length_cons, List.replicate_succ]; rfl
        rw [this, this, hl]
  refine ⟨hT, hE, habs', fun i m m' hm hm' => (hpair' i m m' hm hm').1, fun i m m' hm hm' => ?_, hdef⟩
  obtain ⟨_, hf, ho⟩ := hpair' i m m' hm hm'
  unfold members
  refine forall₂_append ?_ ?_
  · have h2 : List.Forall₂ (fun f g => SameField f g ∧ (f.visible C.cfg = true → SameIn C C' f g)) m.fields m'.fields := by
      refine forall₂_mono hf fun k f g hk hk' h => ⟨h, fun hv => ⟨h, fun ha => ?_, fun a b a' b' e e' => ?_⟩⟩
      · refine fieldDefault_same h hE (fun j hj => ?_) fun s s' hs hs' => hK i m m' k f g s s' hm hm' hk hk' hv hs hs'
        rw [hj] at ha
        cases ha
      · have hfm : f ∈ m.allFields := List.mem_append_left _ (List.mem_of_getElem? hk)
        have hex := (hR i m hm f hfm).1
        have hh := h.2.1
        rw [e, e'] at hh
        simp only [FieldType.owned, FieldType.map.injEq] at hh
        refine ⟨typDefault_same (owned_of_one hh.1) hE fun j hj => ?_, typDefault_same (owned_of_one hh.2) hE fun j hj => ?_⟩
        · obtain ⟨mj, hmj⟩ := Option.isSome_iff_exists.mp (hex j (by rw [e, hj]; exact .key _ .message))
          exact hdef j mj hmj
        · obtain ⟨mj, hmj⟩ := Option.isSome_iff_exists.mp (hex j (by rw [e, hj]; exact .value _ .message))
          exact hdef j mj hmj
    exact forall₂_map (forall₂_filter (p := fun f => f.visible C.cfg) (q := fun f => f.visible C'.cfg) h2 fun f g h => h.1.visible _ _ hdep) fun f g h => .field (h.1.2 h.2)
  · have : ∀ (l : List OneOf) (cfg : Config), (l.map fun o => Member.oneof (o.fields.filter (·.visible cfg))) =
        (l.map (·.fields)).map fun fs => Member.oneof (fs.filter (·.visible cfg)) := fun l cfg => by rw [List.map_map]; rfl
    rw [this, this]
    exact forall₂_map ho fun fs gs h => .oneof ((forall₂_filter (p := fun f => f.visible C.cfg) (q := fun f => f.visible C'.cfg) h fun f g h => h.visible _ _ hdep).imp fun _ _ h => h.1)

/-- Two compilations of a file with different options describe the same functions. -/
theorem same_compiled {C C' : Ctx} {D E₁ E₂ : FileDescriptor} {b₁ b₂ : Bool} {path₁ path₂ : FileDescriptor → FieldType → Str}
    (h₁ : (D.own b₁).compile path₁ C.cfg = .ok E₁) (h₂ : (D.own b₂).compile path₂ C'.cfg = .ok E₂) (hC : C.D = E₁.printed C.cfg) (hC' : C'.D = E₂.printed C'.cfg)
    (hT : C.T = C'.T) (hdep : C.cfg.addDeprecatedFields = C'.cfg.addDeprecatedFields) (hR : RefsOk C.D) (hd : IsDefault C) (hd' : IsDefault C') (hK : SameConstants C C') :
    SameCtx C C' := by
  obtain ⟨habs, hpair⟩ := compiled_pairs h₁ h₂
  have g₁ : ∀ i, C.D.getMessage i = E₁.getMessage i := fun i => by rw [hC, QP.Rust.printed_get]
  have g₂ : ∀ i, C'.D.getMessage i = E₂.getMessage i := fun i => by rw [hC', QP.Rust.printed_get]
  have hE : ∀ e, C.enumNums e = C'.enumNums e := by
    intro e
    have k₁ : C.D.getEnum e = E₁.getEnum e := by unfold FileDescriptor.getEnum; rw [g₁, hC, QP.Rust.printed_enums]
    have k₂ : C'.D.getEnum e = E₂.getEnum e := by unfold FileDescriptor.getEnum; rw [g₂, hC', QP.Rust.printed_enums]
    have := enum_same h₁ h₂ e
    unfold Ctx.enumNums
    rw [k₁, k₂]
    cases x : E₁.getEnum e with
    | none =>
      cases y : E₂.getEnum e with
      | none => rfl
      | some en' => rw [x, y] at this; cases this
    | some en =>
      cases y : E₂.getEnum e with
      | none => rw [x, y] at this; cases this
      | some en' =>
        rw [x, y] at this
        have := Option.some.inj this
        simp only [this]
  have hsyn : C.D.syntax_ = C'.D.syntax_ := by
    have a := congrArg FileDescriptor.syntax_ (compile_shells h₁).2.2
    have b := congrArg FileDescriptor.syntax_ (compile_shells h₂).2.2
    have p : ∀ (E : FileDescriptor) (cfg : Config), (E.printed cfg).syntax_ = E.syntax_ := fun E cfg => by unfold FileDescriptor.printed; split <;> rfl
    rw [hC, hC', p, p]
    exact (show E₁.syntax_ = D.syntax_ from a).trans (show E₂.syntax_ = D.syntax_ from b).symm
  have habs' : ∀ i, C.D.getMessage i = Option.none ↔ C'.D.getMessage i = Option.none := fun i => by rw [g₁, g₂]; exact habs i
  have hpair' : ∀ i m m', C.D.getMessage i = Option.some m → C'.D.getMessage i = Option.some m' → m.isUnit = m'.isUnit ∧
      List.Forall₂ SameField m.fields m'.fields ∧ List.Forall₂ (List.Forall₂ SameField) (m.oneofs.map (·.fields)) (m'.oneofs.map (·.fields)) :=
    fun i m m' h h' => hpair i m m' (by rw [← g₁]; exact h) (by rw [← g₂]; exact h')
  have hsz : WellFounded (fun j i => Contains C.D i j) := by
    have := compile_allSized h₁
    unfold AllSized Contains at this
    unfold Contains
    simp only [g₁]
    exact this
  exact same_pairs hE hsyn habs' hpair' hsz hT hdep hR hd hd' hK

end QP.Gen
