import Verif.Proofs.AddEmit
set_option linter.unusedVariables false
/-!
# Printing in a schema with more messages and enums (C123)
-/

namespace QP.Pbrs

/-- `D'` has what `D` has, at the same places, and may have more messages and enums. -/
structure Grown (D D' : FileDescriptor) : Prop where
  package : D'.package = D.package
  syntax_ : D'.syntax_ = D.syntax_
  owned : D'.owned = D.owned
  message : ∀ i m, D.getMessage i = some m → D'.getMessage i = some m
  enum : ∀ e en, D.getEnum e = some en → D'.getEnum e = some en
  count : Message.countAll D.messages ≤ Message.countAll D'.messages

/-- What `a` is, `b` is too. -/
def Below {α : Type} (a b : Option α) : Prop := ∀ x, a = some x → b = some x

variable {D D' : FileDescriptor} {cfg : Config}

theorem Grown.modules (h : Grown D D') (m : Str) (b : Bool) : getModules m b D' = getModules m b D := by
  unfold getModules
  rw [h.package]

theorem anyM_grow {α : Type} {p q : α → Option Bool} (h : ∀ a, Below (p a) (q a)) : ∀ l : List α, Below (anyM p l) (anyM q l)
  | [] => fun _ hx => hx
  | a :: as => by
    intro x hx
    unfold anyM at hx ⊢
    cases hp : p a with
    | none => rw [hp] at hx; cases hx
    | some b =>
      rw [hp] at hx
      rw [h a b hp]
      cases b with
      | true => exact hx
      | false => exact anyM_grow h as x hx

theorem typ_grow {r r' : MessageIndex → Option Bool} (h : ∀ i, Below (r i) (r' i)) : ∀ (t : FieldType) (b : Bool), Below (t.hasLifetime r b) (t.hasLifetime r' b)
  | .message i, b => h i
  | .map k v, b => by
    intro x hx
    unfold FieldType.hasLifetime at hx ⊢
    cases hp : FieldType.hasLifetime r false k with
    | none => rw [hp] at hx; cases hx
    | some y =>
      rw [hp] at hx
      rw [typ_grow h k false y hp]
      cases y with
      | true => exact hx
      | false => exact typ_grow h v false x hx
  | .int32, _ | .sint32, _ | .sfixed32, _ | .int64, _ | .sint64, _ | .sfixed64, _ | .uint32, _ | .fixed32, _ | .uint64, _ | .fixed64, _ | .double, _ | .float, _
  | .stringCow, _ | .bytesCow, _ | .string_, _ | .bytes_, _ | .bool, _ | .messageOrEnum _, _ | .enum _, _ => fun _ hx => hx

theorem map_grow {a b : Option Bool} {f : Bool → Bool} (h : Below a b) : Below (a.map f) (b.map f) := by
  intro x hx
  cases a with
  | none => cases hx
  | some y => rw [h y rfl]; exact hx

theorem Grown.hasLifetimeN (h : Grown D D') : ∀ n n', n ≤ n' → ∀ g i, Below (Pbrs.hasLifetimeN D cfg n g i) (Pbrs.hasLifetimeN D' cfg n' g i)
  | 0, _, _, _, _ => fun _ hx => by cases hx
  | n + 1, 0, hn, _, _ => absurd hn (by omega)
  | n + 1, n' + 1, hn, g, i => by
    intro x hx
    unfold Pbrs.hasLifetimeN at hx ⊢
    cases hm : D.getMessage i with
    | none => rw [hm] at hx; cases hx
    | some m =>
      rw [hm] at hx
      rw [h.message i m hm]
      dsimp only at hx ⊢
      split at hx
      · rename_i hi; rw [if_pos hi]; exact hx
      · rename_i hi
        rw [if_neg hi]
        exact anyM_grow (fun f => map_grow (typ_grow (Grown.hasLifetimeN h n n' (by omega) _) _ _)) _ x hx

theorem Grown.hasLifetime (h : Grown D D') (g : List MessageIndex) (i : MessageIndex) : Below (Pbrs.hasLifetime D cfg g i) (Pbrs.hasLifetime D' cfg g i) :=
  h.hasLifetimeN _ _ (Nat.succ_le_succ h.count) g i

theorem Grown.structDeclares (h : Grown D D') (i : MessageIndex) : Below (Pbrs.structDeclares D cfg i) (Pbrs.structDeclares D' cfg i) := h.hasLifetime _ _

theorem Grown.oneofLifetime (h : Grown D D') (o : OneOf) : Below (o.hasLifetime D cfg) (o.hasLifetime D' cfg) :=
  anyM_grow (fun f => map_grow (typ_grow (h.hasLifetime []) _ _)) _

theorem Grown.singularDefault (h : Grown D D') (t : FieldType) : Ext (t.singularDefault D) (t.singularDefault D') := by
  cases t <;> unfold FieldType.singularDefault <;> try exact Ext.refl
  · exact Ext.bind (Ext.panic fun x hx => h.enum _ _ hx) fun _ => Ext.refl
  · simp only [Message.getModules, h.modules]
    exact Ext.bind (Ext.panic fun x hx => h.message _ _ hx) fun _ => Ext.refl

theorem Grown.typeText (h : Grown D D') : ∀ t : FieldType, Ext (t.typeText D cfg) (t.typeText D' cfg)
  | .enum e => by
    unfold FieldType.typeText
    simp only [Enumerator.getModules, h.modules]
    exact Ext.bind (Ext.panic fun x hx => h.enum _ _ hx) fun _ => Ext.refl
  | .message i => by
    unfold FieldType.typeText
    simp only [Message.getModules, h.modules]
    exact Ext.bind (Ext.panic fun x hx => h.message _ _ hx) fun _ => Ext.bind (Ext.panic (h.hasLifetime _ _)) fun _ => Ext.refl
  | .map k v => by
    unfold FieldType.typeText
    exact Ext.bind (Grown.typeText h k) fun _ => Ext.bind (Grown.typeText h v) fun _ => Ext.refl
  | .int32 | .sint32 | .sfixed32 | .int64 | .sint64 | .sfixed64 | .uint32 | .fixed32 | .uint64 | .fixed64 | .double | .float | .stringCow | .bytesCow
  | .string_ | .bytes_ | .bool | .messageOrEnum _ => Ext.refl

theorem Grown.readFn (h : Grown D D') (t : FieldType) : Ext (t.readFn D) (t.readFn D') := by
  cases t <;> unfold FieldType.readFn <;> try exact Ext.refl
  simp only [Message.getModules, h.modules]
  exact Ext.bind (Ext.panic fun x hx => h.message _ _ hx) fun _ => Ext.refl

theorem Grown.custom (h : Grown D D') (f : Field) : f.hasValidVisibleCustomDefault D' cfg = f.hasValidVisibleCustomDefault D cfg := by
  unfold Field.hasValidVisibleCustomDefault
  rw [h.syntax_]

theorem Grown.getter (h : Grown D D') (f : Field) : f.mustGenerateGetter D' cfg = f.mustGenerateGetter D cfg := by
  unfold Field.mustGenerateGetter Field.mustGenerateCustomDefaultConst
  rw [h.custom]

theorem Grown.inclNonCow (h : Grown D D') (f : Field) : Ext (f.typeTextInclNonCow D cfg) (f.typeTextInclNonCow D' cfg) := by
  unfold Field.typeTextInclNonCow
  cases f.typ <;> first | exact Ext.refl | exact h.typeText _

theorem Grown.writeGetter (h : Grown D D') (f : Field) : Ext (f.writeGetter D cfg) (f.writeGetter D' cfg) := by
  unfold Field.writeGetter
  rw [h.getter]
  exact Ext.ite Ext.refl (Ext.bind (h.inclNonCow f) fun _ => Ext.refl)

theorem Grown.canWrite (h : Grown D D') (f : Field) : f.canWriteDefaultConst D' cfg = f.canWriteDefaultConst D cfg := by
  unfold Field.canWriteDefaultConst
  rw [h.syntax_]

theorem Grown.writeCustomDefault (h : Grown D D') (f : Field) : Ext (f.writeCustomDefault D cfg) (f.writeCustomDefault D' cfg) := by
  unfold Field.writeCustomDefault
  rw [h.canWrite]
  exact Ext.ite Ext.refl (Ext.bind (h.inclNonCow f) fun _ => Ext.refl)

theorem Grown.defaultText (h : Grown D D') (f : Field) : Ext (f.defaultText D cfg) (f.defaultText D' cfg) := by
  unfold Field.defaultText
  cases f.frequency.generated with
  | singular =>
    dsimp only
    refine Ext.ite Ext.refl (Ext.ite Ext.refl ?_)
    cases f.default with
    | none => exact h.singularDefault _
    | some d => exact Ext.refl
  | arrayLike => exact Ext.refl
  | map => exact Ext.refl

theorem Grown.writeDefault (h : Grown D D') (f : Field) : Ext (f.writeDefault D cfg) (f.writeDefault D' cfg) :=
  Ext.ite Ext.refl (Ext.bind (h.defaultText f) fun _ => Ext.refl)

theorem Grown.fieldTypeText (h : Grown D D') (f : Field) : Ext (f.fieldTypeText D cfg) (f.fieldTypeText D' cfg) :=
  Ext.bind (h.typeText _) fun _ => Ext.refl

theorem Grown.writeDefinition (h : Grown D D') (f : Field) : Ext (f.writeDefinition D cfg) (f.writeDefinition D' cfg) := by
  unfold Field.writeDefinition
  exact Ext.ite (Ext.ite (Ext.bind (Ext.bind (h.fieldTypeText f) fun _ => Ext.refl) fun _ => Ext.refl) Ext.refl) (Ext.bind (h.fieldTypeText f) fun _ => Ext.refl)

/-- What comes after the reading function in an arm. -/
def armTail (D : FileDescriptor) (f : Field) (val valCow : Doc) : Emit Doc :=
  if f.boxed then pure (ln d!"msg.{f.name} = Some(Box::new({val})),")
  else match f.frequency.generated with
    | .singular =>
      match f.frequency with
      | .p2optional => pure (ln d!"msg.{f.name} = Some({valCow}),")
      | .p2required => pure (ln d!"msg.{f.name} = {valCow},")
      | .p3optional => pure (ln d!"msg.{f.name} = Some({valCow}),")
      | .p3default => pure (ln d!"msg.{f.name} = {valCow},")
      | _ => .error .panic
    | .arrayLike =>
      if f.isPacked then
        if f.typ.isFixedSize then pure (ln d!"msg.{f.name} = r.read_packed_fixed(bytes)?,")
        else pure (ln d!"msg.{f.name} = r.read_packed(bytes, |r, bytes| Ok({valCow}))?,")
      else pure (ln d!"msg.{f.name}.push({valCow}),")
    | .map =>
      match f.typ with
      | .map key value => do
        let k ← key.readFn D
        let v ← value.readFn D
        pure (ln d!"\{"
          ++ ln d!"                    let (key, value) = r.read_map(bytes, |r, bytes| Ok({k.2}), |r, bytes| Ok({v.2}))?;"
          ++ ln d!"                    msg.{f.name}.insert(key, value);"
          ++ ln d!"                }")
      | _ => .error .panic

theorem Grown.armTail (h : Grown D D') (f : Field) (a b : Doc) : Ext (Pbrs.armTail D f a b) (Pbrs.armTail D' f a b) := by
  unfold Pbrs.armTail
  refine Ext.ite Ext.refl ?_
  cases f.frequency.generated with
  | singular => exact Ext.refl
  | arrayLike => exact Ext.refl
  | map =>
    dsimp only
    cases f.typ with
    | map k v => exact Ext.bind (h.readFn k) fun _ => Ext.bind (h.readFn v) fun _ => Ext.refl
    | _ => exact Ext.refl

theorem matchArm_tail (D : FileDescriptor) (f : Field) :
    f.matchArm D = (if f.frequency.isMap then pure (d!"", d!"") else f.typ.readFn D) >>= fun x => Pbrs.armTail D f x.1 x.2 := by
  unfold Field.matchArm
  dsimp only
  cases f.frequency.isMap with
  | true => rfl
  | false => rfl

theorem Grown.matchTag (h : Grown D D') (f : Field) : Ext (f.writeMatchTag D cfg) (f.writeMatchTag D' cfg) := by
  unfold Field.writeMatchTag
  refine Ext.ite Ext.refl (Ext.bind ?_ fun _ => Ext.refl)
  rw [matchArm_tail, matchArm_tail]
  exact Ext.bind (Ext.ite Ext.refl (h.readFn f.typ)) fun x => h.armTail f _ _

theorem Grown.sizeText (h : Grown D D') (f : Field) : Ext (f.sizeText D cfg) (f.sizeText D' cfg) := by
  unfold Field.sizeText
  cases f.frequency.generated with
  | singular => exact Ext.bind (h.defaultText f) fun _ => Ext.refl
  | arrayLike => exact Ext.refl
  | map => exact Ext.refl

theorem Grown.writeGetSize (h : Grown D D') (f : Field) : Ext (f.writeGetSize D cfg) (f.writeGetSize D' cfg) :=
  Ext.ite Ext.refl (Ext.bind (h.sizeText f) fun _ => Ext.refl)

theorem Grown.writeText (h : Grown D D') (f : Field) : Ext (f.writeText D cfg) (f.writeText D' cfg) := by
  unfold Field.writeText
  cases f.frequency.generated with
  | singular => exact Ext.bind (h.defaultText f) fun _ => Ext.refl
  | arrayLike => exact Ext.refl
  | map => exact Ext.refl

theorem Grown.writeWrite (h : Grown D D') (f : Field) : Ext (f.writeWrite D cfg) (f.writeWrite D' cfg) :=
  Ext.ite Ext.refl (Ext.bind (h.writeText f) fun _ => Ext.refl)

/-! ## Oneofs -/

theorem Grown.oModules (h : Grown D D') (o : OneOf) : o.getModules D' = o.getModules D := h.modules _ _

theorem Grown.variant (h : Grown D D') (f : Field) : Ext (OneOf.variant D cfg f) (OneOf.variant D' cfg f) :=
  Ext.ite Ext.refl (Ext.bind (h.typeText _) fun _ => Ext.refl)

theorem Grown.oWrite (h : Grown D D') (o : OneOf) : Ext (o.write D cfg) (o.write D' cfg) := by
  refine Ext.bind ?_ fun _ => Ext.bind ?_ fun _ => Ext.refl
  · unfold OneOf.writeDefinition
    exact Ext.bind (Ext.panic (h.oneofLifetime o)) fun _ => Ext.bind (Ext.all h.variant _) fun _ => Ext.refl
  · unfold OneOf.writeImplDefault
    exact Ext.bind (Ext.panic (h.oneofLifetime o)) fun _ => Ext.refl

theorem Grown.oMember (h : Grown D D') (o : OneOf) : Ext (o.writeMessageDefinition D cfg) (o.writeMessageDefinition D' cfg) := by
  unfold OneOf.writeMessageDefinition
  rw [h.oModules]
  exact Ext.bind (Ext.panic (h.oneofLifetime o)) fun _ => Ext.refl

theorem Grown.oDefault (h : Grown D D') : OneOf.writeDefault D' = OneOf.writeDefault D := by
  funext o
  unfold OneOf.writeDefault OneOf.defaultText
  rw [h.oModules]

theorem Grown.oMatchTag (h : Grown D D') (o : OneOf) : Ext (o.writeMatchTag D cfg) (o.writeMatchTag D' cfg) := by
  unfold OneOf.writeMatchTag
  refine Ext.all (fun f => ?_) _
  unfold OneOf.matchArm
  rw [h.oModules]
  exact Ext.bind (h.readFn _) fun _ => Ext.refl

theorem Grown.oGetSize (h : Grown D D') (o : OneOf) : o.writeGetSize D' cfg = o.writeGetSize D cfg := by
  unfold OneOf.writeGetSize
  have : o.sizeArm D' = o.sizeArm D := by
    funext f
    unfold OneOf.sizeArm
    rw [h.oModules]
  rw [this, h.oModules]

theorem Grown.oWriteWrite (h : Grown D D') (o : OneOf) : o.writeWrite D' cfg = o.writeWrite D cfg := by
  unfold OneOf.writeWrite
  have : o.writeArm D' = o.writeArm D := by
    funext f
    unfold OneOf.writeArm
    rw [h.oModules]
  rw [this, h.oModules]

/-! ## Messages -/

theorem Grown.declares (h : Grown D D') (m : Message) : Ext (m.declaresLifetime D cfg) (m.declaresLifetime D' cfg) := Ext.panic (h.structDeclares _)

theorem Grown.consts (h : Grown D D') (m : Message) : Ext (m.writeDefaultConsts D cfg) (m.writeDefaultConsts D' cfg) := by
  unfold Message.writeDefaultConsts
  have e : (fun f => Field.canWriteDefaultConst D' cfg f) = fun f => Field.canWriteDefaultConst D cfg f := funext h.canWrite
  rw [h.syntax_, e]
  exact Ext.ite Ext.refl (Ext.ite Ext.refl (Ext.bind (h.declares m) fun _ => Ext.bind (Ext.all h.writeCustomDefault _) fun _ => Ext.refl))

theorem Grown.getters (h : Grown D D') (m : Message) : Ext (m.writeGetters D cfg) (m.writeGetters D' cfg) := by
  unfold Message.writeGetters
  exact Ext.bind (h.declares m) fun _ => Ext.bind (Ext.all h.writeGetter _) fun _ => Ext.refl

theorem Grown.implDefault (h : Grown D D') (m : Message) : m.mustGenerateImplDefault D' cfg = m.mustGenerateImplDefault D cfg := by
  unfold Message.mustGenerateImplDefault Field.mustGenerateImplDefault
  simp only [h.custom]

theorem Grown.mDefinition (h : Grown D D') (m : Message) : Ext (m.writeDefinition D cfg) (m.writeDefinition D' cfg) := by
  unfold Message.writeDefinition
  rw [h.implDefault]
  exact Ext.ite Ext.refl (Ext.bind (h.declares m) fun _ => Ext.bind (Ext.all h.writeDefinition _) fun _ => Ext.bind (Ext.all h.oMember _) fun _ => Ext.refl)

theorem Grown.mDefault (h : Grown D D') (m : Message) : Ext (m.writeImplDefault D cfg) (m.writeImplDefault D' cfg) := by
  unfold Message.writeImplDefault
  rw [h.oDefault]
  exact Ext.ite Ext.refl (Ext.bind (h.declares m) fun _ => Ext.bind (Ext.all h.writeDefault _) fun _ => Ext.refl)

theorem Grown.mInfo (h : Grown D D') (m : Message) : Ext (m.writeImplMessageInfo D cfg) (m.writeImplMessageInfo D' cfg) := by
  unfold Message.writeImplMessageInfo
  exact Ext.bind (h.declares m) fun _ => Ext.refl

theorem Grown.mRead (h : Grown D D') (m : Message) : Ext (m.writeImplMessageRead D cfg) (m.writeImplMessageRead D' cfg) := by
  unfold Message.writeImplMessageRead
  exact Ext.ite Ext.refl (Ext.bind (h.declares m) fun _ => Ext.bind (Ext.all h.matchTag _) fun _ => Ext.bind (Ext.all h.oMatchTag _) fun _ => Ext.refl)

theorem Grown.mWrite (h : Grown D D') (m : Message) : Ext (m.writeImplMessageWrite D cfg) (m.writeImplMessageWrite D' cfg) := by
  unfold Message.writeImplMessageWrite Message.writeGetSize Message.writeWriteMessage
  have e : OneOf.writeGetSize D' cfg = OneOf.writeGetSize D cfg := funext h.oGetSize
  have e' : OneOf.writeWrite D' cfg = OneOf.writeWrite D cfg := funext h.oWriteWrite
  rw [e, e']
  exact Ext.ite Ext.refl (Ext.bind (h.declares m) fun _ => Ext.bind (Ext.bind (Ext.all h.writeGetSize _) fun _ => Ext.refl) fun _ =>
    Ext.bind (Ext.bind (Ext.all h.writeWrite _) fun _ => Ext.refl) fun _ => Ext.refl)

theorem Grown.uses (h : Grown D D') (ms : List Message) : Ext (Message.writeCommonUses D cfg ms) (Message.writeCommonUses D' cfg ms) := by
  unfold Message.writeCommonUses
  refine Ext.bind (Ext.panic ?_) fun _ => Ext.refl
  intro x hx
  split at hx
  · rename_i hn
    rw [if_pos hn]
    refine anyM_grow (fun m y hy => ?_) ms x hx
    unfold Message.usesBox at hy ⊢
    rw [h.owned]
    split at hy
    · rename_i ho
      rw [if_pos ho]
      cases hl : Pbrs.hasLifetime D cfg [] m.index with
      | none => rw [hl] at hy; cases hy
      | some l => rw [hl] at hy; rw [h.hasLifetime _ _ l hl]; exact hy
    · rename_i ho
      rw [if_neg ho]
      exact hy
  · rename_i hn
    rw [if_neg hn]
    exact hx

mutual
theorem Grown.write (h : Grown D D') : ∀ m : Message, Ext (m.write D cfg) (m.write D' cfg)
  | ⟨name, fields, oneofs, nums, names, imported, pkg, messages, enums, module, index⟩ => by
    unfold Message.write
    dsimp only
    have e1 : ∀ m : Message, m.mustGenerateCustomDefaultConsts D' cfg = m.mustGenerateCustomDefaultConsts D cfg := by
      intro m
      unfold Message.mustGenerateCustomDefaultConsts Field.mustGenerateCustomDefaultConst
      simp only [h.custom]
    have e2 : ∀ m : Message, m.mustGenerateGetters D' cfg = m.mustGenerateGetters D cfg := by
      intro m
      unfold Message.mustGenerateGetters
      simp only [h.getter]
    rw [e1, e2, h.implDefault, h.owned]
    refine Ext.bind (h.mDefinition _) fun _ => Ext.bind (Ext.emitIf (Ext.bind (h.consts _) fun _ => Ext.refl)) fun _ =>
      Ext.bind (Ext.emitIf (Ext.bind (h.getters _) fun _ => Ext.refl)) fun _ => Ext.bind (Ext.emitIf (Ext.bind (h.mDefault _) fun _ => Ext.refl)) fun _ =>
      Ext.bind (h.mRead _) fun _ => Ext.bind (h.mWrite _) fun _ => Ext.bind (Ext.emitIf (Ext.bind (h.mInfo _) fun _ => Ext.refl)) fun _ =>
      Ext.bind (Ext.emitIf (Ext.bind (Ext.panic (h.hasLifetime _ _)) fun _ => Ext.refl)) fun _ =>
      Ext.bind (Ext.emitIf (Ext.bind (h.uses _) fun _ => Ext.bind (Grown.writeAll h messages) fun _ => Ext.bind Ext.refl fun _ =>
        Ext.bind (Ext.all h.oWrite _) fun _ => Ext.refl)) fun _ => Ext.refl
theorem Grown.writeAll (h : Grown D D') : ∀ ms : List Message, Ext (Message.writeAll D cfg ms) (Message.writeAll D' cfg ms)
  | [] => Ext.refl
  | m :: ms => by
    unfold Message.writeAll
    exact Ext.bind (Grown.write h m) fun _ => Ext.bind (Grown.writeAll h ms) fun _ => Ext.refl
end

end QP.Pbrs
