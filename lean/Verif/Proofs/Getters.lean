import Verif.Spec.Getters
import Verif.Proofs.Printed
import Verif.Proofs.EvalProg
set_option linter.unusedVariables false
/-!
# Getters and constants: proofs
-/

namespace QP.Rust
open QP.Pbrs QP.Gen Spec

/-! ## Text -/

section
variable {D : FileDescriptor} {cfg : Config} {f : Field}

theorem getter_iff (hs : FieldSane f) : f.mustGenerateCustomDefaultConst D cfg = true ↔ ∃ s, Defaulted D cfg f s := by
  unfold Field.mustGenerateCustomDefaultConst
  rw [Bool.and_eq_true]
  unfold Field.hasValidVisibleCustomDefault
  constructor
  · intro ⟨h, ho⟩
    simp only [Bool.and_eq_true, Bool.or_eq_true, beq_iff_eq, Bool.not_eq_true', Option.isSome_iff_exists] at h
    obtain ⟨⟨⟨⟨h1, h2⟩, h3⟩, h4⟩, s, h5⟩ := h
    have hfr : f.frequency = .p2optional := by
      rcases h3 with h3 | h3
      · exact h3
      · rw [h3] at ho; cases ho
    refine ⟨s, h2, hfr, ⟨by simpa using h4, ?_⟩, h1, h5⟩
    rw [← hs.map, hfr]
    rfl
  · rintro ⟨s, h1, h2, h3, h4, h5⟩
    refine ⟨?_, by rw [h2]; rfl⟩
    rw [h4, h1, h2, h3.1, h5]
    rfl

theorem isOptional_iff {x : Frequency} : x.isOptional = true ↔ x = .p2optional ∨ x = .p3optional := by
  cases x <;> decide

/-- The type is a scalar type (and not a name). -/
theorem scalar_iff {t : FieldType} (h : ∀ n, t ≠ .messageOrEnum n) :
    (!t.needToDereference && !t.isCow && !t.isNonCow) = false ↔ t.asMessage = none ∧ t.isMap = false := by
  cases t <;> first | exact absurd rfl (h _) | simp [FieldType.needToDereference, FieldType.isCow, FieldType.isNonCow, FieldType.asMessage, FieldType.isMap]

theorem scalar_of {t : FieldType} (h : (!t.needToDereference && !t.isCow && !t.isNonCow) = false) : t.asMessage = none ∧ t.isMap = false := by
  revert h
  cases t <;> simp [FieldType.needToDereference, FieldType.isCow, FieldType.isNonCow, FieldType.asMessage, FieldType.isMap]

theorem canWrite_iff (hf : D.syntax_ = .proto2 → f.frequency ≠ .p3optional) :
    (f.canWriteDefaultConst D cfg = true → ∃ s, Defaulted D cfg f s) ∧
    ((∀ n, f.typ ≠ .messageOrEnum n) → (∃ s, Defaulted D cfg f s) → f.canWriteDefaultConst D cfg = true) := by
  unfold Field.canWriteDefaultConst
  have hv : f.visible cfg = !(f.deprecated && !cfg.addDeprecatedFields) := by
    unfold Field.visible
    cases f.deprecated <;> cases cfg.addDeprecatedFields <;> rfl
  constructor
  · intro h
    simp only [Bool.not_eq_true', Bool.or_eq_false_iff] at h
    obtain ⟨⟨⟨⟨h1, h2⟩, h3⟩, h4⟩, h5⟩ := h
    have h1' : D.syntax_ = .proto2 := by
      revert h1
      cases D.syntax_ <;> decide
    have h5' : f.frequency.isOptional = true := by simpa using h5
    obtain ⟨s, hs⟩ : ∃ s, f.default = some s := by
      cases hd : f.default with
      | none => rw [hd] at h3; cases h3
      | some s => exact ⟨s, rfl⟩
    exact ⟨s, h1', (isOptional_iff.mp h5').resolve_right (hf h1'), scalar_of h2, by rw [hv, h4]; rfl, hs⟩
  · rintro ht ⟨s, h1, h2, h3, h4, h5⟩
    rw [(scalar_iff ht).mpr h3, h1, h2, h5]
    rw [hv] at h4
    have : (f.deprecated && !cfg.addDeprecatedFields) = false := by revert h4; cases f.deprecated <;> cases cfg.addDeprecatedFields <;> decide
    rw [this]
    rfl

theorem tyOf_named {t : FieldType} {T : Ty} (h : tyOf D cfg t = some T) : ∀ n, t ≠ .messageOrEnum n := by
  rintro n rfl
  cases h

/-- The text of a constant. -/
theorem const_text {s : Str} {T : Ty} (h : Defaulted D cfg f s) (hf : D.syntax_ = .proto2 → f.frequency ≠ .p3optional)
    (ht : tyOf D cfg f.typ = some T) : ∃ c, constItem D cfg f = some c ∧ f.writeCustomDefault D cfg = .ok c.doc := by
  have hc : f.canWriteDefaultConst D cfg = true := (canWrite_iff hf).2 (tyOf_named ht) ⟨s, h⟩
  unfold Field.writeCustomDefault Field.typeTextInclNonCow constItem
  rw [hc, h.default]
  cases hty : f.typ <;> rw [hty] at ht <;> simp only [constTy, ht] <;>
    first
      | (refine ⟨_, rfl, ?_⟩; rw [ty_text ht]; rfl)
      | exact ⟨_, rfl, rfl⟩

theorem getterItem_exists {T : Ty} (ht : tyOf D cfg f.typ = some T) : ∃ g, getterItem D cfg f = some g := by
  unfold getterItem
  cases hty : f.typ <;> rw [hty] at ht <;> simp only [ht] <;> exact ⟨_, rfl⟩

/-- The text of a getter. -/
theorem getter_text {s : Str} {T : Ty} (hs : FieldSane f) (h : Defaulted D cfg f s) (hg : cfg.generateGetters = true)
    (ht : tyOf D cfg f.typ = some T) : ∃ g, getterItem D cfg f = some g ∧ f.writeGetter D cfg = .ok g.doc := by
  have hc : f.mustGenerateGetter D cfg = true := by
    unfold Field.mustGenerateGetter
    rw [(getter_iff hs).mpr ⟨s, h⟩, hg]
    rfl
  unfold Field.writeGetter Field.typeTextInclNonCow getterItem
  rw [hc]
  have hn := tyOf_named ht
  obtain ⟨hm, hmap⟩ := h.scalar
  cases hty : f.typ <;> rw [hty] at ht hn hm hmap <;> simp only [ht] <;>
    first
      | (cases hm; done)
      | (cases hmap; done)
      | exact absurd rfl (hn _)
      | exact ⟨_, rfl, rfl⟩
      | (cases ht; exact ⟨_, rfl, rfl⟩)
      | (refine ⟨_, rfl, ?_⟩; rw [ty_text ht]; rfl)

/-- Lines that are written for some elements only. -/
theorem emitAll_filter {α β : Type} {w : α → Emit Doc} {p : α → Prop} [DecidablePred p] {item : α → Option β} {doc : β → Doc}
    : ∀ {l : List α}, (∀ a ∈ l, ¬ p a → w a = .ok .empty) → (∀ a ∈ l, p a → ∃ b, item a = some b ∧ w a = .ok (doc b)) →
    ∃ bs, (l.filter fun a => p a).mapM item = some bs ∧ emitAll w l = .ok (Doc.concat (bs.map doc))
  | [], _, _ => ⟨[], rfl, rfl⟩
  | a :: l, hno, h => by
    obtain ⟨bs, h1, h2⟩ := emitAll_filter (l := l) (fun x hx => hno x (List.mem_cons_of_mem _ hx)) fun x hx => h x (List.mem_cons_of_mem _ hx)
    by_cases hp : p a
    · obtain ⟨b, hb, hw⟩ := h a List.mem_cons_self hp
      refine ⟨b :: bs, ?_, ?_⟩
      · rw [List.filter_cons_of_pos (by simpa using hp), List.mapM_cons, hb, h1]; rfl
      · rw [emitAll, hw, h2]; rfl
    · refine ⟨bs, ?_, ?_⟩
      · rw [List.filter_cons_of_neg (by simpa using hp)]; exact h1
      · rw [emitAll, hno a List.mem_cons_self hp, h2]; rfl

end

/-- The blocks of constants and getters. -/
theorem message_blocks {D : FileDescriptor} {cfg : Config} {m : Message} {d : Doc} (h : m.write D cfg = .ok d) :
    (∃ a, m.writeDefinition D cfg = .ok a) ∧
    (m.mustGenerateCustomDefaultConsts D cfg = true → ∃ a, m.writeDefaultConsts D cfg = .ok a ∧ Doc.Has d a) ∧
    (m.mustGenerateGetters D cfg = true → ∃ a, m.writeGetters D cfg = .ok a ∧ Doc.Has d a) := by
  obtain ⟨name, fields, oneofs, nums, names, imported, pkg, messages, enums, module, index⟩ := m
  rw [Message.write] at h
  obtain ⟨x1, h1, h⟩ := emit_bind h
  obtain ⟨x2, h2, h⟩ := emit_bind h
  obtain ⟨x3, h3, h⟩ := emit_bind h
  obtain ⟨x4, h4, h⟩ := emit_bind h
  obtain ⟨x5, h5, h⟩ := emit_bind h
  obtain ⟨x6, h6, h⟩ := emit_bind h
  obtain ⟨x7, h7, h⟩ := emit_bind h
  obtain ⟨x8, h8, h⟩ := emit_bind h
  obtain ⟨x9, h9, h⟩ := emit_bind h
  cases h
  simp only [Doc.append_assoc]
  refine ⟨⟨x1, h1⟩, fun hd => ?_, fun hd => ?_⟩
  · have := emitIf_ok h2 hd
    obtain ⟨y, k, this⟩ := emit_bind this
    cases this
    exact ⟨y, k, Has.right _ (Has.right _ (Has.right _ (Has.left (Has.left (Has.refl _) _) _)))⟩
  · have := emitIf_ok h3 hd
    obtain ⟨y, k, this⟩ := emit_bind this
    cases this
    exact ⟨y, k, Has.right _ (Has.right _ (Has.right _ (Has.right _ (Has.left (Has.left (Has.refl _) _) _))))⟩

/-- The types of the fields of a printed struct. -/
theorem definition_types {D : FileDescriptor} {cfg : Config} {m : Message} {a : Doc} (h : m.writeDefinition D cfg = .ok a) (hu : m.isUnit = false) :
    ∀ f ∈ m.fields, f.visible cfg = true → ∃ T, tyOf D cfg f.typ = some T := by
  intro f hf hv
  unfold Message.writeDefinition at h
  simp only [hu, Bool.false_eq_true, if_false] at h
  obtain ⟨l, hl, h⟩ := emit_bind h
  obtain ⟨b, hb, h⟩ := emit_bind h
  obtain ⟨x, hx⟩ := emitAll_ok hb f hf
  unfold Field.writeDefinition at hx
  have key : ∀ {x : Doc}, (do let t ← f.fieldTypeText D cfg; pure (ln d!"    pub {f.name}: {t},") : Emit Doc) = .ok x → ∃ T, tyOf D cfg f.typ = some T := by
    intro x hx
    obtain ⟨t, ht, _⟩ := emit_bind hx
    exact fieldTy_exists ht
  have hvis := visible_iff hv
  cases hd : f.deprecated
  · rw [hd] at hx
    exact key hx
  · rw [hd] at hvis hx
    have : cfg.addDeprecatedFields = true := by revert hvis; cases cfg.addDeprecatedFields <;> decide
    rw [this] at hx
    obtain ⟨y, hy, _⟩ := emit_bind hx
    exact key hy

/-- The blocks of constants and getters, and when they are written. -/
theorem items_text {D : FileDescriptor} {cfg : Config} {m : Message} {a : Doc} (hs : MessageSane m)
    (hf : D.syntax_ = .proto2 → ∀ f ∈ m.fields, f.frequency ≠ .p3optional) (ha : m.writeDefinition D cfg = .ok a) :
    ∃ cs gs, constItems D cfg m = some cs ∧ getterItems D cfg m = some gs ∧
      (m.mustGenerateCustomDefaultConsts D cfg = true ↔ cs ≠ []) ∧
      (m.mustGenerateGetters D cfg = true ↔ gs ≠ [] ∧ cfg.generateGetters = true) ∧
      (cs ≠ [] → gs ≠ []) ∧
      (cs ≠ [] → ∀ b, m.writeDefaultConsts D cfg = .ok b →
        ∃ l, structDeclares D cfg m.index = some l ∧ b = implBlock m.name l (cs.map ConstItem.doc) ++ Doc.nl) ∧
      (cfg.generateGetters = true → ∀ b, m.writeGetters D cfg = .ok b →
        ∃ l, structDeclares D cfg m.index = some l ∧ b = implBlock m.name l (gs.map GetterItem.doc) ++ Doc.nl) := by
  have hmap : ∀ {α β : Type} {t : α → Option β} {l : List α} {bs : List β}, l.mapM t = some bs → (bs = [] ↔ l = []) := by
    intro α β t l bs h
    have := mapM_len h
    cases l <;> cases bs <;> simp at this ⊢
  cases hu : m.isUnit
  · have hT := definition_types ha hu
    have hno : ∀ f ∈ m.fields, ¬ (∃ s, Defaulted D cfg f s) → f.writeCustomDefault D cfg = .ok .empty := by
      intro f hm hn
      have : f.canWriteDefaultConst D cfg = false := by
        cases hc : f.canWriteDefaultConst D cfg
        · rfl
        · exact absurd ((canWrite_iff fun h => hf h f hm).1 hc) hn
      unfold Field.writeCustomDefault
      rw [this]
      rfl
    have hno' : ∀ f ∈ m.fields, ¬ (∃ s, Defaulted D cfg f s) → f.writeGetter D cfg = .ok .empty := by
      intro f hm hn
      have : f.mustGenerateGetter D cfg = false := by
        unfold Field.mustGenerateGetter
        cases hc : f.mustGenerateCustomDefaultConst D cfg
        · rfl
        · exact absurd ((getter_iff (hs.fields f hm)).mp hc) hn
      unfold Field.writeGetter
      rw [this]
      rfl
    obtain ⟨cs, hcs, ec⟩ := emitAll_filter (p := fun f => ∃ s, Defaulted D cfg f s) (w := Field.writeCustomDefault D cfg)
      (item := constItem D cfg) (doc := ConstItem.doc) hno fun f hm ⟨s, hd⟩ => by
        obtain ⟨T, ht⟩ := hT f hm hd.visible
        exact const_text hd (fun h => hf h f hm) ht
    have hitem : ∀ f ∈ m.fields, (∃ s, Defaulted D cfg f s) → ∃ g, getterItem D cfg f = some g := by
      intro f hm ⟨s, hd⟩
      obtain ⟨T, ht⟩ := hT f hm hd.visible
      exact getterItem_exists ht
    obtain ⟨gs, hgs⟩ : ∃ gs, getterItems D cfg m = some gs := by
      refine mapM_exists fun f hm => ?_
      obtain ⟨h1, h2⟩ := List.mem_filter.mp hm
      exact hitem f h1 (by simpa using h2)
    have hdl : defaultedFields D cfg m ≠ [] ↔ ∃ f ∈ m.fields, ∃ s, Defaulted D cfg f s := by
      constructor
      · intro hne
        cases hl : defaultedFields D cfg m with
        | nil => exact absurd hl hne
        | cons f l =>
          have : f ∈ defaultedFields D cfg m := by rw [hl]; exact List.mem_cons_self
          obtain ⟨h1, h2⟩ := List.mem_filter.mp this
          exact ⟨f, h1, by simpa using h2⟩
      · rintro ⟨f, hm, hd⟩ hl
        have : f ∈ defaultedFields D cfg m := List.mem_filter.mpr ⟨hm, by simpa using hd⟩
        rw [hl] at this
        cases this
    have hcs' : cs ≠ [] ↔ ∃ f ∈ m.fields, ∃ s, Defaulted D cfg f s := by
      rw [← hdl]
      exact not_congr (hmap (show (defaultedFields D cfg m).mapM (constItem D cfg) = some cs from hcs))
    have hgs' : gs ≠ [] ↔ ∃ f ∈ m.fields, ∃ s, Defaulted D cfg f s := by
      rw [← hdl]
      exact not_congr (hmap (show (defaultedFields D cfg m).mapM (getterItem D cfg) = some gs from hgs))
    refine ⟨cs, gs, hcs, hgs, ?_, ?_, fun h => hgs'.mpr (hcs'.mp h), ?_, ?_⟩
    · rw [hcs']
      unfold Message.mustGenerateCustomDefaultConsts
      rw [List.any_eq_true]
      exact ⟨fun ⟨f, hm, h⟩ => ⟨f, hm, (getter_iff (hs.fields f hm)).mp h⟩, fun ⟨f, hm, h⟩ => ⟨f, hm, (getter_iff (hs.fields f hm)).mpr h⟩⟩
    · rw [hgs']
      unfold Message.mustGenerateGetters
      rw [Bool.and_eq_true, List.any_eq_true]
      refine and_congr_left fun hg => ?_
      unfold Field.mustGenerateGetter
      rw [hg]
      simp only [Bool.and_true]
      exact ⟨fun ⟨f, hm, h⟩ => ⟨f, hm, (getter_iff (hs.fields f hm)).mp h⟩, fun ⟨f, hm, h⟩ => ⟨f, hm, (getter_iff (hs.fields f hm)).mpr h⟩⟩
    · intro hne b hb
      obtain ⟨f, hm, s, hd'⟩ := hcs'.mp hne
      unfold Message.writeDefaultConsts at hb
      rw [if_neg (by rw [hd'.proto2]; decide)] at hb
      have hany : m.fields.any (fun f => f.canWriteDefaultConst D cfg) = true := by
        obtain ⟨T, ht⟩ := hT f hm hd'.visible
        exact List.any_eq_true.mpr ⟨f, hm, (canWrite_iff fun h => hf h f hm).2 (tyOf_named ht) ⟨s, hd'⟩⟩
      rw [hany] at hb
      obtain ⟨l, hl, hb⟩ := emit_bind hb
      rw [ec] at hb
      cases hb
      exact ⟨l, orPanic_ok hl, rfl⟩
    · intro hg b hb
      obtain ⟨gs', hgs', eg⟩ := emitAll_filter (p := fun f => ∃ s, Defaulted D cfg f s) (w := Field.writeGetter D cfg)
        (item := getterItem D cfg) (doc := GetterItem.doc) hno' fun f hm ⟨s, hd⟩ => by
          obtain ⟨T, ht⟩ := hT f hm hd.visible
          exact getter_text (hs.fields f hm) hd hg ht
      cases hgs.symm.trans hgs'
      unfold Message.writeGetters at hb
      obtain ⟨l, hl, hb⟩ := emit_bind hb
      rw [eg] at hb
      cases hb
      exact ⟨l, orPanic_ok hl, rfl⟩
  · have hf : m.fields = [] := by
      obtain ⟨_, fields, oneofs, _, _, _, _, ms, _, _, _⟩ := m
      unfold Message.isUnit at hu
      simp only [Bool.and_eq_true, List.isEmpty_iff] at hu
      exact hu.1.1
    have : defaultedFields D cfg m = [] := by unfold defaultedFields; rw [hf]; rfl
    refine ⟨[], [], ?_, ?_, ?_, ?_, fun h => absurd rfl h, fun h => absurd rfl h, ?_⟩
    · unfold constItems; rw [this]; rfl
    · unfold getterItems; rw [this]; rfl
    · unfold Message.mustGenerateCustomDefaultConsts; rw [hf]; simp
    · unfold Message.mustGenerateGetters; rw [hf]; simp
    · intro hg b hb
      unfold Message.writeGetters at hb
      obtain ⟨l, hl, hb⟩ := emit_bind hb
      rw [hf] at hb
      cases hb
      exact ⟨l, orPanic_ok hl, rfl⟩

/-- What is written for a message. -/
theorem message_items {D : FileDescriptor} {cfg : Config} {m : Message} {d : Doc} (hs : MessageSane m)
    (hf : D.syntax_ = .proto2 → ∀ f ∈ m.fields, f.frequency ≠ .p3optional) (h : m.write D cfg = .ok d) :
    ∃ cs gs, constItems D cfg m = some cs ∧ getterItems D cfg m = some gs ∧
      (cs ≠ [] → ∃ l, structDeclares D cfg m.index = some l ∧ Doc.Has d (implBlock m.name l (cs.map ConstItem.doc)) ∧
        (cfg.generateGetters = true → Doc.Has d (implBlock m.name l (gs.map GetterItem.doc)))) := by
  obtain ⟨⟨a, ha⟩, hC, hG⟩ := message_blocks h
  obtain ⟨cs, gs, h1, h2, h3, h4, h5, h6, h7⟩ := items_text hs hf ha
  refine ⟨cs, gs, h1, h2, fun hne => ?_⟩
  obtain ⟨b, hb, hdb⟩ := hC (h3.mpr hne)
  obtain ⟨l, hl, rfl⟩ := h6 hne b hb
  refine ⟨l, hl, Has.trans hdb (Has.left (Has.refl _) _), fun hg => ?_⟩
  obtain ⟨b, hb, hdb⟩ := hG (h4.mpr ⟨h5 hne, hg⟩)
  obtain ⟨l', hl', rfl⟩ := h7 hg b hb
  rw [hl] at hl'
  cases hl'
  exact Has.trans hdb (Has.left (Has.refl _) _)

/-! ## Meaning -/

section
variable {C : Ctx} {P : Prog} {dflt : Path → RVal}

/-- In a list with different names, looking for a name finds it. -/
theorem findIdx_name {α : Type} {g : α → Str} : ∀ {l : List α} {i : Nat} {a : α}, (l.map g).Nodup → l[i]? = some a →
    l.findIdx? (fun x => g x == g a) = some i
  | [], i, a, _, h => by simp at h
  | b :: l, 0, a, hn, h => by
    cases h
    rw [List.findIdx?_cons]
    simp
  | b :: l, i + 1, a, hn, h => by
    rw [List.map_cons, List.nodup_cons] at hn
    have ha : a ∈ l := List.mem_of_getElem? h
    have hne : g b ≠ g a := fun e => hn.1 (e ▸ List.mem_map_of_mem ha)
    rw [List.findIdx?_cons, findIdx_name hn.2 h]
    simp [hne]

theorem find_name {α : Type} {g : α → Str} : ∀ {l : List α} {a : α}, (l.map g).Nodup → a ∈ l → l.find? (fun x => g x == g a) = some a
  | b :: l, a, hn, h => by
    rw [List.map_cons, List.nodup_cons] at hn
    cases h with
    | head => simp
    | tail _ h =>
      have hne : g b ≠ g a := fun e => hn.1 (e ▸ List.mem_map_of_mem h)
      rw [List.find?_cons_of_neg (by simpa using hne)]
      exact find_name hn.2 h

/-- A call of a getter of an optional field. -/
theorem getter_call {D : FileDescriptor} {cfg : Config} {f : Field} {g : GetterItem} {T : Ty} {W : GetWorld} {i : Nat} {v : RVal} {s : Str}
    (ht : tyOf D cfg f.typ = some T) (hg : getterItem D cfg f = some g)
    (hi : W.fields.findIdx? (fun x => x.1 == f.name) = some i) (hfi : W.fields[i]? = some (f.name, .option T)) (hv : W.slots[i]? = some v)
    {c : ConstItem} (hc : constItem D cfg f = some c) (hs : f.default = some s)
    (hfc : W.consts.find? (fun x => x.name == c! "DEFAULT_" ++ f.name) = some c) (hopt : v = .none ∨ ∃ x, v = .some x) :
    g.call W = some (valueOr (W.const (match f.typ with | .string_ => .ref .str | .bytes_ => .ref .slice | _ => T.erase) s) v) := by
  have e1 : (GetExpr.asRef (.field f.name)).eval W = some (.option (.ref T.erase), v) := by
    simp only [GetExpr.eval, hi, Option.bind_some, hfi, hv, Option.map_some, Ty.erase]
  have e2 : (GetExpr.const (c! "DEFAULT_" ++ f.name)).eval W = some (c.ty.erase, W.const c.ty.erase c.text) := by
    simp only [GetExpr.eval, hfc, Option.map_some]
  unfold constItem at hc
  rw [hs, Option.bind_some] at hc
  obtain ⟨t, htc, rfl⟩ := Option.map_eq_some_iff.mp hc
  have key : ∀ (a b : GetExpr) (t : Ty) (d : RVal), a.eval W = some (.option t, v) → b.eval W = some (t, d) →
      (GetExpr.unwrapOr a b).eval W = some (t, valueOr d v) := by
    intro a b t d ha hb
    simp only [GetExpr.eval, ha, hb, Option.bind_some]
    rcases hopt with rfl | ⟨x, rfl⟩ <;> simp [valueOr]
  unfold getterItem at hg
  have self : ∀ t : Ty, coerces t t = true := fun t => by unfold coerces; simp
  have plain : ∀ (n : Str), t = T → (GetterItem.call ⟨n, T, .deref (.unwrapOr (.asRef (.field f.name)) (.ref (.const (c! "DEFAULT_" ++ f.name))))⟩ W) =
      some (valueOr (W.const T.erase s) v) := by
    rintro n rfl
    have e3 : (GetExpr.ref (.const (c! "DEFAULT_" ++ f.name))).eval W = some (.ref t.erase, W.const t.erase s) := by
      simp only [GetExpr.eval] at e2 ⊢
      rw [e2]
      rfl
    have e4 := key _ _ _ _ e1 e3
    unfold GetterItem.call
    have e5 : (GetExpr.deref (.unwrapOr (.asRef (.field f.name)) (.ref (.const (c! "DEFAULT_" ++ f.name))))).eval W =
        some (t.erase, valueOr (W.const t.erase s) v) := by
      rw [GetExpr.eval, e4]
      rfl
    rw [e5]
    simp only [Option.bind_some, self, if_true]
  have cow : ∀ (n : Str), t = T → (GetterItem.call ⟨n, .ref T, .unwrapOr (.asRef (.field f.name)) (.ref (.const (c! "DEFAULT_" ++ f.name)))⟩ W) =
      some (valueOr (W.const T.erase s) v) := by
    rintro n rfl
    have e3 : (GetExpr.ref (.const (c! "DEFAULT_" ++ f.name))).eval W = some (.ref t.erase, W.const t.erase s) := by
      simp only [GetExpr.eval] at e2 ⊢
      rw [e2]
      rfl
    have e4 := key _ _ _ _ e1 e3
    unfold GetterItem.call
    rw [e4]
    simp only [Option.bind_some, Ty.erase, self, if_true]
  cases hty : f.typ with
  | string_ =>
    rw [hty] at ht htc
    cases ht
    cases htc
    simp only [hty] at hg
    cases hg
    have e3 : (GetExpr.mapStr (.asRef (.field f.name))).eval W = some (.option (.ref .str), v) := by
      rw [GetExpr.eval, e1]
      rfl
    have e4 := key _ _ _ _ e3 e2
    unfold GetterItem.call
    rw [GetExpr.eval, e4]
    rfl
  | bytes_ =>
    rw [hty] at ht htc
    cases ht
    cases htc
    simp only [hty] at hg
    cases hg
    have e3 : (GetExpr.mapSlice (.asRef (.field f.name))).eval W = some (.option (.ref .slice), v) := by
      rw [GetExpr.eval, e1]
      rfl
    have e4 := key _ _ _ _ e3 e2
    unfold GetterItem.call
    rw [GetExpr.eval, e4]
    rfl
  | stringCow =>
    rw [hty] at ht htc
    cases ht
    cases htc
    simp only [hty] at hg
    cases hg
    exact cow _ rfl
  | bytesCow =>
    rw [hty] at ht htc
    cases ht
    cases htc
    simp only [hty] at hg
    cases hg
    exact cow _ rfl
  | _ =>
    rw [hty] at ht htc
    simp only [hty, ht] at hg
    cases hg
    exact plain _ (Option.some.inj (htc.symm.trans ht))

end

end QP.Rust
