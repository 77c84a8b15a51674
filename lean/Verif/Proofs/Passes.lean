import Verif.Model.Pbrs.Passes
import Verif.Spec.Pipeline
import Verif.Props.Cycles
import Verif.Props.Resolve
/-!
# The passes after parsing
-/

set_option linter.unusedVariables false

namespace QP.Pbrs

/-! ## Via -/

theorem Via.trans {D D' D'' : FileDescriptor} {H K : MessageIndex → Field → Field} (h : Via D D' H) (k : Via D' D'' K) :
    Via D D'' (fun i => K i ∘ H i) := by
  intro i
  rw [k i, h i, Option.map_map]
  cases D.fieldsAt i with
  | none => rfl
  | some p => simp [Function.comp]

theorem Via.id (D : FileDescriptor) : Via D D (fun _ => _root_.id) := by
  intro i
  cases D.fieldsAt i <;> simp

theorem Via.congr {D D' : FileDescriptor} {H K : MessageIndex → Field → Field} (h : Via D D' H) (e : ∀ i f, H i f = K i f) :
    Via D D' K := by
  have : H = K := funext fun i => funext fun f => e i f
  exact this ▸ h

theorem Rewritten.via {D D' : FileDescriptor} {H : MessageIndex → Field → Field} (h : Rewritten D D' H) : Via D D' H := by
  intro i
  have := congrArg (Option.map (fun m : Message => (m.fields, m.oneofs.map (·.fields)))) (h.messages i)
  rw [Option.map_map, Option.map_map] at this
  unfold FileDescriptor.fieldsAt
  rw [Option.map_map]
  refine Eq.trans ?_ (this.trans ?_)
  · cases D'.getMessage i <;> simp [Message.ownFields, Function.comp]
  · cases D.getMessage i <;> simp [Message.ownFields, Function.comp]

theorem Via.isSome {D D' : FileDescriptor} {H : MessageIndex → Field → Field} (h : Via D D' H) (i : MessageIndex) :
    (D'.getMessage i).isSome = (D.getMessage i).isSome := by
  have := congrArg Option.isSome (h i)
  simpa [FileDescriptor.fieldsAt] using this

theorem allFields_eq (m : Message) : m.allFields = m.fields ++ (m.oneofs.map (·.fields)).flatten := by
  simp [Message.allFields, List.flatMap]

theorem Via.message {D D' : FileDescriptor} {H : MessageIndex → Field → Field} (h : Via D D' H) {i : MessageIndex}
    {m' : Message} (hm : D'.getMessage i = some m') :
    ∃ m, D.getMessage i = some m ∧ m'.fields = m.fields.map (H i) ∧
      m'.oneofs.map (·.fields) = m.oneofs.map (fun o => o.fields.map (H i)) ∧ m'.allFields = m.allFields.map (H i) := by
  have := h i
  unfold FileDescriptor.fieldsAt at this
  rw [hm] at this
  cases hd : D.getMessage i with
  | none => rw [hd] at this; cases this
  | some m =>
    rw [hd] at this
    simp only [Option.map_some, Option.some.injEq, Prod.mk.injEq, List.map_map] at this
    refine ⟨m, rfl, this.1, this.2, ?_⟩
    rw [allFields_eq, allFields_eq, this.1, this.2, List.map_append, List.map_flatten, List.map_map]

theorem Via.message_fwd {D D' : FileDescriptor} {H : MessageIndex → Field → Field} (h : Via D D' H) {i : MessageIndex}
    {m : Message} (hm : D.getMessage i = some m) :
    ∃ m', D'.getMessage i = some m' ∧ m'.fields = m.fields.map (H i) ∧
      m'.oneofs.map (·.fields) = m.oneofs.map (fun o => o.fields.map (H i)) ∧ m'.allFields = m.allFields.map (H i) := by
  have hs := h.isSome i
  rw [hm] at hs
  obtain ⟨m', hm'⟩ := Option.isSome_iff_exists.mp hs
  obtain ⟨x, hx, h1⟩ := h.message hm'
  cases hm.symm.trans hx
  exact ⟨m', hm', h1⟩

/-! ## mapDeep -/

theorem mapDeepAll_eq (h : Field → Field) (ms : List Message) : Message.mapDeepAll h ms = ms.map (Message.mapDeep h) := by
  induction ms with
  | nil => rfl
  | cons m ms ih => simp [Message.mapDeepAll, ih]

theorem mapDeep_messages (h : Field → Field) (m : Message) : (m.mapDeep h).messages = m.messages.map (Message.mapDeep h) := by
  cases m; simp only [Message.mapDeep, mapDeepAll_eq]

theorem descend_of_messages {g : Message → Message} (hg : ∀ m, (g m).messages = m.messages.map g) (js : List Nat) :
    ∀ m, (g m).descend js = (m.descend js).map g := by
  induction js with
  | nil => intro m; rfl
  | cons j js ih =>
    intro m
    simp only [Message.descend, hg, List.getElem?_map]
    cases m.messages[j]? with
    | none => rfl
    | some x => exact ih x

theorem getMessage_of_messages {g : Message → Message} (hg : ∀ m, (g m).messages = m.messages.map g) (D D' : FileDescriptor)
    (hD : D'.messages = D.messages.map g) (i : MessageIndex) : D'.getMessage i = (D.getMessage i).map g := by
  cases i with
  | nil => rfl
  | cons j js =>
    simp only [FileDescriptor.getMessage, hD, List.getElem?_map]
    cases D.messages[j]? with
    | none => rfl
    | some x => exact descend_of_messages hg js x

theorem getMessage_mapDeep (h : Field → Field) (D : FileDescriptor) (i : MessageIndex) :
    FileDescriptor.getMessage { D with messages := Message.mapDeepAll h D.messages } i = (D.getMessage i).map (Message.mapDeep h) :=
  getMessage_of_messages (mapDeep_messages h) D _ (mapDeepAll_eq h D.messages) i

theorem convert_via (a b : FieldType) (D : FileDescriptor) :
    Via D (D.convertFieldTypes a b) (fun _ f => { f with typ := f.typ.convert a b }) := by
  intro i
  unfold FileDescriptor.fieldsAt FileDescriptor.convertFieldTypes
  rw [getMessage_mapDeep, Option.map_map, Option.map_map]
  congr 1
  funext m
  cases m
  simp [Message.mapDeep, Function.comp]

/-! ## Names -/

theorem sanitizeNamesAll_eq (ms : List Message) : Message.sanitizeNamesAll ms = ms.map Message.sanitizeNames := by
  induction ms with
  | nil => rfl
  | cons m ms ih => simp [Message.sanitizeNamesAll, ih]

theorem sanitizeNames_messages (m : Message) : m.sanitizeNames.messages = m.messages.map Message.sanitizeNames := by
  cases m; simp only [Message.sanitizeNames, sanitizeNamesAll_eq]

theorem getMessage_sanitizeNames (D : FileDescriptor) (i : MessageIndex) :
    D.sanitizeNames.getMessage i = (D.getMessage i).map Message.sanitizeNames :=
  getMessage_of_messages sanitizeNames_messages D _ (sanitizeNamesAll_eq D.messages) i

theorem sanitizeNames_via (D : FileDescriptor) :
    Via D D.sanitizeNames (fun _ f => { f with name := sanitizeKeyword f.name }) := by
  intro i
  unfold FileDescriptor.fieldsAt
  rw [getMessage_sanitizeNames, Option.map_map, Option.map_map]
  congr 1
  funext m
  cases m
  simp [Message.sanitizeNames, OneOf.sanitizeNames, Function.comp]

/-! ## Defaults -/

theorem mapM?_some {α β : Type} {g : α → Option β} {l : List α} {l' : List β} (h : mapM? g l = some l') :
    l.map g = l'.map some := by
  induction l generalizing l' with
  | nil => cases h; rfl
  | cons a l ih =>
    simp only [mapM?] at h
    split at h
    · rename_i b bs hb hbs
      cases h
      simp [hb, ih hbs]
    · cases h

theorem map_getD {α : Type} {g : α → Option α} {l l' : List α} (h : l.map g = l'.map some) :
    l' = l.map (fun a => (g a).getD a) := by
  induction l generalizing l' with
  | nil =>
    cases l' with
    | nil => rfl
    | cons _ _ => cases h
  | cons a l ih =>
    cases l' with
    | nil => cases h
    | cons b l' =>
      simp only [List.map_cons, List.cons.injEq] at h
      simp [h.1, ← ih h.2]

theorem mapM?_eq {α : Type} {g : α → Option α} {l l' : List α} (h : mapM? g l = some l') :
    l' = l.map (fun a => (g a).getD a) := map_getD (mapM?_some h)

/-- The field with its default rewritten. -/
def defaulted (path : FieldType → Str) (f : Field) : Field := (f.sanitizeDefault path).getD f

theorem oneof_defaulted {path : FieldType → Str} {o o' : OneOf} (h : o.sanitizeDefaults path = some o') :
    o' = { o with fields := o.fields.map (defaulted path) } := by
  unfold OneOf.sanitizeDefaults at h
  obtain ⟨fs, h1, rfl⟩ := Option.map_eq_some_iff.mp h
  rw [mapM?_eq h1]
  rfl

theorem oneofs_defaulted {path : FieldType → Str} {os os' : List OneOf} (h : mapM? (OneOf.sanitizeDefaults path) os = some os') :
    os' = os.map (fun o => { o with fields := o.fields.map (defaulted path) }) := by
  induction os generalizing os' with
  | nil => cases h; rfl
  | cons o os ih =>
    simp only [mapM?] at h
    split at h
    · rename_i b bs hb hbs
      cases h
      simp [oneof_defaulted hb, ih hbs]
    · cases h

mutual
theorem sanitizeDefaults_eq (path : FieldType → Str) : ∀ (m m' : Message), m.sanitizeDefaults path = some m' →
    m' = m.mapDeep (defaulted path)
  | ⟨name, fields, oneofs, nums, names, imported, pkg, messages, enums, module, index⟩, m', h => by
    simp only [Message.sanitizeDefaults] at h
    split at h
    · rename_i fs os ms h1 h2 h3
      cases h
      have := sanitizeDefaultsAll_eq path messages ms h3
      simp only [Message.mapDeep, this, oneofs_defaulted h2, mapM?_eq h1]
      rfl
    · cases h
theorem sanitizeDefaultsAll_eq (path : FieldType → Str) : ∀ (ms ms' : List Message),
    Message.sanitizeDefaultsAll path ms = some ms' → ms' = Message.mapDeepAll (defaulted path) ms
  | [], ms', h => by cases h; rfl
  | m :: ms, ms', h => by
    simp only [Message.sanitizeDefaultsAll] at h
    split at h
    · rename_i m1 ms1 h1 h2
      cases h
      simp only [Message.mapDeepAll, sanitizeDefaults_eq path m m1 h1, sanitizeDefaultsAll_eq path ms ms1 h2]
    · cases h
end

/-! ## Passes over the messages of the file only -/

theorem descend_mapAllFields (h : Field → Field) (m : Message) (j : Nat) (js : List Nat) :
    (m.mapAllFields h).descend (j :: js) = m.descend (j :: js) := rfl

theorem top_via (h : Field → Field) (D : FileDescriptor) :
    Via D { D with messages := D.messages.map (Message.mapAllFields h) } (fun i => if i.length = 1 then h else _root_.id) := by
  intro i
  unfold FileDescriptor.fieldsAt
  cases i with
  | nil => rfl
  | cons j js =>
    simp only [FileDescriptor.getMessage, List.getElem?_map]
    cases D.messages[j]? with
    | none => rfl
    | some m =>
      cases js with
      | nil => simp [Message.descend, Message.mapAllFields, Function.comp]
      | cons k js =>
        simp only [Option.map_some, Option.bind_some, descend_mapAllFields, List.length_cons]
        rw [if_neg (by omega)]
        cases m.descend (k :: js) <;> simp

theorem setDefaults_via {path : FieldType → Str} {D D' : FileDescriptor} (h : D.setDefaults path = some D') :
    Via D D' (fun i f =>
      let f := if D.syntax_ = .proto3 ∧ i.length = 1 then f.repeatedAsPacked else f
      let f := defaulted path f
      if i.length = 1 then f.unsetPackedNonPrimitive else f) := by
  unfold FileDescriptor.setDefaults at h
  simp only at h
  split at h
  · cases h
  · rename_i ms hms
    cases h
    rw [sanitizeDefaultsAll_eq path _ _ hms]
    have step2 : ∀ E : FileDescriptor, Via E { E with messages := Message.mapDeepAll (defaulted path) E.messages }
        (fun _ => defaulted path) := by
      intro E i
      unfold FileDescriptor.fieldsAt
      rw [getMessage_mapDeep, Option.map_map, Option.map_map]
      congr 1
      funext m
      cases m
      simp [Message.mapDeep, Function.comp]
    by_cases hs : D.syntax_ = .proto3
    · have v1 := top_via Field.repeatedAsPacked D
      have v2 := step2 { D with messages := D.messages.map (Message.mapAllFields Field.repeatedAsPacked) }
      have v3 := top_via Field.unsetPackedNonPrimitive
        { D with messages := Message.mapDeepAll (defaulted path) (D.messages.map (Message.mapAllFields Field.repeatedAsPacked)) }
      have := (v1.trans v2).trans v3
      simp only [hs, if_true, true_and]
      refine Via.congr this fun i f => ?_
      by_cases hi : i.length = 1 <;> simp [hi, Function.comp]
    · have v2 := step2 D
      have v3 := top_via Field.unsetPackedNonPrimitive { D with messages := Message.mapDeepAll (defaulted path) D.messages }
      have := v2.trans v3
      simp only [hs, if_false, false_and]
      refine Via.congr this fun i f => ?_
      by_cases hi : i.length = 1 <;> simp [hi, Function.comp]

end QP.Pbrs
