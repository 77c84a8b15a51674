import Verif.Model.Pbrs.Emit
set_option linter.unusedVariables false
/-!
# What is printed for messages does not change when enums are added
-/

namespace QP.Pbrs

/-- `D'` is `D` with more enums. -/
structure More (D D' : FileDescriptor) : Prop where
  package : D'.package = D.package
  syntax_ : D'.syntax_ = D.syntax_
  owned : D'.owned = D.owned
  messages : D'.messages = D.messages
  enum : ∀ e en, D.getEnum e = some en → D'.getEnum e = some en

/-- What `a` prints, `b` prints too. -/
def Ext {ε α : Type} (a b : Except ε α) : Prop := ∀ r, a = .ok r → b = .ok r

theorem Ext.refl {ε α : Type} {a : Except ε α} : Ext a a := fun _ h => h

theorem Ext.of_eq {ε α : Type} {a b : Except ε α} (h : b = a) : Ext a b := h ▸ Ext.refl

theorem Ext.bind {α β : Type} {a b : Emit α} {f g : α → Emit β} (h : Ext a b) (hf : ∀ x, Ext (f x) (g x)) : Ext (a >>= f) (b >>= g) := by
  intro r hr
  cases a with
  | error e => cases hr
  | ok x =>
    rw [h x rfl]
    exact hf x r hr

theorem Ext.ite {α : Type} {p : Prop} [Decidable p] {a b c d : Emit α} (h1 : Ext a b) (h2 : Ext c d) : Ext (if p then a else c) (if p then b else d) := by
  by_cases h : p
  · rw [if_pos h, if_pos h]; exact h1
  · rw [if_neg h, if_neg h]; exact h2

theorem Ext.panic {α : Type} {a b : Option α} (h : ∀ x, a = some x → b = some x) : Ext (orPanic a) (orPanic b) := by
  intro r hr
  cases a with
  | none => cases hr
  | some x => rw [h x rfl]; exact hr

theorem Ext.all {α : Type} {f g : α → Emit Doc} (h : ∀ a, Ext (f a) (g a)) : ∀ l : List α, Ext (emitAll f l) (emitAll g l)
  | [] => Ext.refl
  | a :: as => Ext.bind (h a) fun d => Ext.bind (Ext.all h as) fun _ => Ext.refl

variable {D D' : FileDescriptor} {cfg : Config}

theorem More.getMessage (h : More D D') : D'.getMessage = D.getMessage := by
  funext i
  cases i with
  | nil => rfl
  | cons a l => simp only [FileDescriptor.getMessage, h.messages]

theorem More.modules (h : More D D') (m : Str) (b : Bool) : getModules m b D' = getModules m b D := by
  unfold getModules
  rw [h.package]

theorem More.hasLifetimeN (h : More D D') : ∀ n, Pbrs.hasLifetimeN D' cfg n = Pbrs.hasLifetimeN D cfg n
  | 0 => rfl
  | n + 1 => by
    funext ignore i
    unfold Pbrs.hasLifetimeN
    rw [h.getMessage]
    simp only [More.hasLifetimeN h n]

theorem More.hasLifetime (h : More D D') : Pbrs.hasLifetime D' cfg = Pbrs.hasLifetime D cfg := by
  funext ignore i
  unfold Pbrs.hasLifetime
  rw [h.messages, h.hasLifetimeN]

theorem More.structDeclares (h : More D D') (i : MessageIndex) : Pbrs.structDeclares D' cfg i = Pbrs.structDeclares D cfg i := by
  unfold Pbrs.structDeclares
  rw [h.hasLifetime]

theorem More.oneofLifetime (h : More D D') (o : OneOf) : o.hasLifetime D' cfg = o.hasLifetime D cfg := by
  unfold OneOf.hasLifetime
  rw [h.hasLifetime]

theorem More.singularDefault (h : More D D') (t : FieldType) : Ext (t.singularDefault D) (t.singularDefault D') := by
  cases t <;> unfold FieldType.singularDefault <;> try exact Ext.refl
  · exact Ext.bind (Ext.panic fun x hx => h.enum _ _ hx) fun _ => Ext.refl
  · rw [h.getMessage]
    simp only [Message.getModules, h.modules]
    exact Ext.refl

theorem More.typeText (h : More D D') : ∀ t : FieldType, Ext (t.typeText D cfg) (t.typeText D' cfg)
  | .enum e => by
    unfold FieldType.typeText
    simp only [Enumerator.getModules, h.modules]
    exact Ext.bind (Ext.panic fun x hx => h.enum _ _ hx) fun _ => Ext.refl
  | .message i => by
    unfold FieldType.typeText
    rw [h.getMessage, h.hasLifetime]
    simp only [Message.getModules, h.modules]
    exact Ext.refl
  | .map k v => by
    unfold FieldType.typeText
    exact Ext.bind (More.typeText h k) fun _ => Ext.bind (More.typeText h v) fun _ => Ext.refl
  | .int32 | .sint32 | .sfixed32 | .int64 | .sint64 | .sfixed64 | .uint32 | .fixed32 | .uint64 | .fixed64 | .double | .float | .stringCow | .bytesCow
  | .string_ | .bytes_ | .bool | .messageOrEnum _ => Ext.refl

theorem More.readFn (h : More D D') (t : FieldType) : t.readFn D' = t.readFn D := by
  cases t <;> unfold FieldType.readFn <;> try rfl
  rw [h.getMessage]
  simp only [Message.getModules, h.modules]

theorem More.custom (h : More D D') (f : Field) : f.hasValidVisibleCustomDefault D' cfg = f.hasValidVisibleCustomDefault D cfg := by
  unfold Field.hasValidVisibleCustomDefault
  rw [h.syntax_]

theorem More.getter (h : More D D') (f : Field) : f.mustGenerateGetter D' cfg = f.mustGenerateGetter D cfg := by
  unfold Field.mustGenerateGetter Field.mustGenerateCustomDefaultConst
  rw [h.custom]

theorem More.inclNonCow (h : More D D') (f : Field) : Ext (f.typeTextInclNonCow D cfg) (f.typeTextInclNonCow D' cfg) := by
  unfold Field.typeTextInclNonCow
  cases f.typ <;> first | exact Ext.refl | exact h.typeText _

theorem More.writeGetter (h : More D D') (f : Field) : Ext (f.writeGetter D cfg) (f.writeGetter D' cfg) := by
  unfold Field.writeGetter
  rw [h.getter]
  exact Ext.ite Ext.refl (Ext.bind (h.inclNonCow f) fun _ => Ext.refl)

theorem More.canWrite (h : More D D') (f : Field) : f.canWriteDefaultConst D' cfg = f.canWriteDefaultConst D cfg := by
  unfold Field.canWriteDefaultConst
  rw [h.syntax_]

theorem More.writeCustomDefault (h : More D D') (f : Field) : Ext (f.writeCustomDefault D cfg) (f.writeCustomDefault D' cfg) := by
  unfold Field.writeCustomDefault
  rw [h.canWrite]
  exact Ext.ite Ext.refl (Ext.bind (h.inclNonCow f) fun _ => Ext.refl)

theorem More.defaultText (h : More D D') (f : Field) : Ext (f.defaultText D cfg) (f.defaultText D' cfg) := by
  unfold Field.defaultText
  cases f.frequency.generated with
  | singular =>
    dsimp only
    refine Ext.ite Ext.refl (Ext.ite Ext.refl ?_)
    cases f.default with
    | none => exact h.singularDefault _
    | some d => exact Ext.refl
  | arrayLike => exact Ext.refl
  | map => exact Ext.refl

theorem More.writeDefault (h : More D D') (f : Field) : Ext (f.writeDefault D cfg) (f.writeDefault D' cfg) :=
  Ext.ite Ext.refl (Ext.bind (h.defaultText f) fun _ => Ext.refl)

theorem More.fieldTypeText (h : More D D') (f : Field) : Ext (f.fieldTypeText D cfg) (f.fieldTypeText D' cfg) :=
  Ext.bind (h.typeText _) fun _ => Ext.refl

theorem More.writeDefinition (h : More D D') (f : Field) : Ext (f.writeDefinition D cfg) (f.writeDefinition D' cfg) := by
  unfold Field.writeDefinition
  exact Ext.ite (Ext.ite (Ext.bind (Ext.bind (h.fieldTypeText f) fun _ => Ext.refl) fun _ => Ext.refl) Ext.refl) (Ext.bind (h.fieldTypeText f) fun _ => Ext.refl)

theorem More.matchTag (h : More D D') (f : Field) : f.writeMatchTag D' cfg = f.writeMatchTag D cfg := by
  unfold Field.writeMatchTag Field.matchArm
  have e : FieldType.readFn D' = FieldType.readFn D := funext h.readFn
  rw [e]

theorem More.sizeText (h : More D D') (f : Field) : Ext (f.sizeText D cfg) (f.sizeText D' cfg) := by
  unfold Field.sizeText
  cases f.frequency.generated with
  | singular => exact Ext.bind (h.defaultText f) fun _ => Ext.refl
  | arrayLike => exact Ext.refl
  | map => exact Ext.refl

theorem More.writeGetSize (h : More D D') (f : Field) : Ext (f.writeGetSize D cfg) (f.writeGetSize D' cfg) :=
  Ext.ite Ext.refl (Ext.bind (h.sizeText f) fun _ => Ext.refl)

theorem More.writeText (h : More D D') (f : Field) : Ext (f.writeText D cfg) (f.writeText D' cfg) := by
  unfold Field.writeText
  cases f.frequency.generated with
  | singular => exact Ext.bind (h.defaultText f) fun _ => Ext.refl
  | arrayLike => exact Ext.refl
  | map => exact Ext.refl

theorem More.writeWrite (h : More D D') (f : Field) : Ext (f.writeWrite D cfg) (f.writeWrite D' cfg) :=
  Ext.ite Ext.refl (Ext.bind (h.writeText f) fun _ => Ext.refl)

/-! ## Oneofs -/

theorem More.oModules (h : More D D') (o : OneOf) : o.getModules D' = o.getModules D := h.modules _ _

theorem More.variant (h : More D D') (f : Field) : Ext (OneOf.variant D cfg f) (OneOf.variant D' cfg f) :=
  Ext.ite Ext.refl (Ext.bind (h.typeText _) fun _ => Ext.refl)

theorem More.oWrite (h : More D D') (o : OneOf) : Ext (o.write D cfg) (o.write D' cfg) := by
  refine Ext.bind ?_ fun _ => Ext.bind (Ext.of_eq ?_) fun _ => Ext.refl
  · unfold OneOf.writeDefinition
    rw [h.oneofLifetime]
    exact Ext.bind Ext.refl fun _ => Ext.bind (Ext.all h.variant _) fun _ => Ext.refl
  · unfold OneOf.writeImplDefault
    rw [h.oneofLifetime]

theorem More.oMember (h : More D D') (o : OneOf) : o.writeMessageDefinition D' cfg = o.writeMessageDefinition D cfg := by
  unfold OneOf.writeMessageDefinition
  rw [h.oneofLifetime, h.oModules]

theorem More.oDefault (h : More D D') : OneOf.writeDefault D' = OneOf.writeDefault D := by
  funext o
  unfold OneOf.writeDefault OneOf.defaultText
  rw [h.oModules]

theorem More.oMatchTag (h : More D D') (o : OneOf) : o.writeMatchTag D' cfg = o.writeMatchTag D cfg := by
  unfold OneOf.writeMatchTag
  have : o.matchArm D' = o.matchArm D := by
    funext f
    unfold OneOf.matchArm
    rw [h.readFn, h.oModules]
  rw [this]

theorem More.oGetSize (h : More D D') (o : OneOf) : o.writeGetSize D' cfg = o.writeGetSize D cfg := by
  unfold OneOf.writeGetSize
  have : o.sizeArm D' = o.sizeArm D := by
    funext f
    unfold OneOf.sizeArm
    rw [h.oModules]
  rw [this, h.oModules]

theorem More.oWriteWrite (h : More D D') (o : OneOf) : o.writeWrite D' cfg = o.writeWrite D cfg := by
  unfold OneOf.writeWrite
  have : o.writeArm D' = o.writeArm D := by
    funext f
    unfold OneOf.writeArm
    rw [h.oModules]
  rw [this, h.oModules]

/-! ## Messages -/

theorem More.declares (h : More D D') (m : Message) : m.declaresLifetime D' cfg = m.declaresLifetime D cfg := by
  unfold Message.declaresLifetime
  rw [h.structDeclares]

theorem Ext.emitIf {b : Bool} {x y : Emit Doc} (h : Ext x y) : Ext (emitIf b x) (emitIf b y) := Ext.ite h Ext.refl

theorem More.consts (h : More D D') (m : Message) : Ext (m.writeDefaultConsts D cfg) (m.writeDefaultConsts D' cfg) := by
  unfold Message.writeDefaultConsts
  have e : (fun f => Field.canWriteDefaultConst D' cfg f) = fun f => Field.canWriteDefaultConst D cfg f := funext h.canWrite
  rw [h.syntax_, h.declares, e]
  exact Ext.ite Ext.refl (Ext.ite Ext.refl (Ext.bind Ext.refl fun _ => Ext.bind (Ext.all h.writeCustomDefault _) fun _ => Ext.refl))

theorem More.getters (h : More D D') (m : Message) : Ext (m.writeGetters D cfg) (m.writeGetters D' cfg) := by
  unfold Message.writeGetters
  rw [h.declares]
  exact Ext.bind Ext.refl fun _ => Ext.bind (Ext.all h.writeGetter _) fun _ => Ext.refl

theorem More.implDefault (h : More D D') (m : Message) : m.mustGenerateImplDefault D' cfg = m.mustGenerateImplDefault D cfg := by
  unfold Message.mustGenerateImplDefault Field.mustGenerateImplDefault
  simp only [h.custom]

theorem More.mDefinition (h : More D D') (m : Message) : Ext (m.writeDefinition D cfg) (m.writeDefinition D' cfg) := by
  unfold Message.writeDefinition
  have e : OneOf.writeMessageDefinition D' cfg = OneOf.writeMessageDefinition D cfg := funext h.oMember
  rw [h.declares, h.implDefault, e]
  exact Ext.ite Ext.refl (Ext.bind Ext.refl fun _ => Ext.bind (Ext.all h.writeDefinition _) fun _ => Ext.refl)

theorem More.mDefault (h : More D D') (m : Message) : Ext (m.writeImplDefault D cfg) (m.writeImplDefault D' cfg) := by
  unfold Message.writeImplDefault
  rw [h.declares, h.oDefault]
  exact Ext.ite Ext.refl (Ext.bind Ext.refl fun _ => Ext.bind (Ext.all h.writeDefault _) fun _ => Ext.refl)

theorem More.mInfo (h : More D D') (m : Message) : m.writeImplMessageInfo D' cfg = m.writeImplMessageInfo D cfg := by
  unfold Message.writeImplMessageInfo
  rw [h.declares]

theorem More.mRead (h : More D D') (m : Message) : m.writeImplMessageRead D' cfg = m.writeImplMessageRead D cfg := by
  unfold Message.writeImplMessageRead
  have e : OneOf.writeMatchTag D' cfg = OneOf.writeMatchTag D cfg := funext h.oMatchTag
  have e' : Field.writeMatchTag D' cfg = Field.writeMatchTag D cfg := funext h.matchTag
  rw [h.declares, e, e']

theorem More.mWrite (h : More D D') (m : Message) : Ext (m.writeImplMessageWrite D cfg) (m.writeImplMessageWrite D' cfg) := by
  unfold Message.writeImplMessageWrite Message.writeGetSize Message.writeWriteMessage
  have e : OneOf.writeGetSize D' cfg = OneOf.writeGetSize D cfg := funext h.oGetSize
  have e' : OneOf.writeWrite D' cfg = OneOf.writeWrite D cfg := funext h.oWriteWrite
  rw [h.declares, e, e']
  exact Ext.ite Ext.refl (Ext.bind Ext.refl fun _ => Ext.bind (Ext.bind (Ext.all h.writeGetSize _) fun _ => Ext.refl) fun _ =>
    Ext.bind (Ext.bind (Ext.all h.writeWrite _) fun _ => Ext.refl) fun _ => Ext.refl)

theorem More.uses (h : More D D') (ms : List Message) : Message.writeCommonUses D' cfg ms = Message.writeCommonUses D cfg ms := by
  unfold Message.writeCommonUses
  have e : Message.usesBox D' cfg = Message.usesBox D cfg := by
    funext m
    unfold Message.usesBox
    rw [h.owned, h.hasLifetime]
  rw [e]

mutual
theorem More.write (h : More D D') : ∀ m : Message, Ext (m.write D cfg) (m.write D' cfg)
  | ⟨name, fields, oneofs, nums, names, imported, pkg, messages, enums, module, index⟩ => by
    unfold Message.write
    dsimp only
    have e1 : ∀ m : Message, m.mustGenerateCustomDefaultConsts D' cfg = m.mustGenerateCustomDefaultConsts D cfg := by
      intro m
      unfold Message.mustGenerateCustomDefaultConsts Field.mustGenerateCustomDefaultConst
      simp only [h.custom]
    have e2 : ∀ m : Message, m.mustGenerateGetters D' cfg = m.mustGenerateGetters D cfg := by
      intro m
      unfold Message.mustGenerateGetters
      simp only [h.getter]
    rw [e1, e2, h.implDefault, h.mRead, h.owned, h.hasLifetime, h.uses, h.mInfo]
    refine Ext.bind (h.mDefinition _) fun _ => Ext.bind (Ext.emitIf (Ext.bind (h.consts _) fun _ => Ext.refl)) fun _ =>
      Ext.bind (Ext.emitIf (Ext.bind (h.getters _) fun _ => Ext.refl)) fun _ => Ext.bind (Ext.emitIf (Ext.bind (h.mDefault _) fun _ => Ext.refl)) fun _ =>
      Ext.bind Ext.refl fun _ => Ext.bind (h.mWrite _) fun _ => Ext.bind Ext.refl fun _ => Ext.bind Ext.refl fun _ =>
      Ext.bind (Ext.emitIf (Ext.bind Ext.refl fun _ => Ext.bind (More.writeAll h messages) fun _ => Ext.bind Ext.refl fun _ =>
        Ext.bind (Ext.all h.oWrite _) fun _ => Ext.refl)) fun _ => Ext.refl
theorem More.writeAll (h : More D D') : ∀ ms : List Message, Ext (Message.writeAll D cfg ms) (Message.writeAll D' cfg ms)
  | [] => Ext.refl
  | m :: ms => by
    unfold Message.writeAll
    exact Ext.bind (More.write h m) fun _ => Ext.bind (More.writeAll h ms) fun _ => Ext.refl
end

theorem More.writeMessages (h : More D D') : Ext (D.writeMessages cfg) (D'.writeMessages cfg) := by
  unfold FileDescriptor.writeMessages
  rw [h.messages]
  exact Ext.all (fun m => h.write m) _

theorem More.writeUses (h : More D D') : D'.writeUses cfg = D.writeUses cfg := by
  unfold FileDescriptor.writeUses
  rw [h.messages, h.owned, h.uses]

theorem More.writeImports (h : More D D') : D'.writeImports = D.writeImports := by
  unfold FileDescriptor.writeImports
  rw [h.package]

end QP.Pbrs
