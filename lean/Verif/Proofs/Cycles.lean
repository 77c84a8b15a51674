import Verif.Model.Pbrs.Cycles
import Verif.Spec.Rewrite
import Verif.Proofs.Sccs
/-!
# `break_cycles` leaves no by-value cycle
-/

set_option linter.unusedVariables false

namespace QP.Pbrs
open Spec

theorem descend_modifyAt {β : Type} (π : Message → β) (hπ : ∀ (m : Message) ms, π { m with messages := ms } = π m)
    (g : Message → Message) (hg : ∀ m, (g m).messages = m.messages) (is : List Nat) :
    ∀ (m : Message) (js : List Nat), ((m.modifyAt g is).descend js).map π =
      (m.descend js).map (fun m' => if js = is then π (g m') else π m') := by
  induction is with
  | nil =>
    intro m js
    cases js with
    | nil => rfl
    | cons j js =>
      simp only [Message.modifyAt, Message.descend, hg, reduceCtorEq, if_false]
  | cons i is ih =>
    intro m js
    cases js with
    | nil => simp [Message.modifyAt, Message.descend, hπ]
    | cons j js =>
      simp only [Message.modifyAt, Message.descend, List.getElem?_modify]
      cases hm : m.messages[j]? with
      | none => simp
      | some x =>
        by_cases hij : i = j
        · subst hij
          simp only [if_true, Option.map_some, Option.bind_some, Option.map_eq_map, ih, List.cons.injEq, true_and]
        · have hji : ¬ j = i := fun h => hij h.symm
          simp only [hij, if_false, Option.map_some, Option.bind_some, Option.map_eq_map, List.cons.injEq, hji,
            false_and]

theorem getMessage_modify {β : Type} (π : Message → β) (hπ : ∀ (m : Message) ms, π { m with messages := ms } = π m)
    (g : Message → Message) (hg : ∀ m, (g m).messages = m.messages) (D : FileDescriptor) (v i : MessageIndex) :
    ((D.modifyMessage v g).getMessage i).map π =
      (D.getMessage i).map (fun m => if i = v then π (g m) else π m) := by
  cases v with
  | nil =>
    cases i with
    | nil => rfl
    | cons j js => simp only [FileDescriptor.modifyMessage, reduceCtorEq, if_false]
  | cons k ks =>
    cases i with
    | nil => rfl
    | cons j js =>
      simp only [FileDescriptor.modifyMessage, FileDescriptor.getMessage, List.getElem?_modify]
      cases hm : D.messages[j]? with
      | none => simp
      | some x =>
        by_cases hij : k = j
        · subst hij
          simp only [if_true, Option.map_some, Option.bind_some, Option.map_eq_map, descend_modifyAt π hπ g hg,
            List.cons.injEq, true_and]
        · have hji : ¬ j = k := fun h => hij h.symm
          simp only [hij, if_false, Option.map_some, Option.bind_some, Option.map_eq_map, List.cons.injEq, hji,
            false_and]

theorem ownFields_messages (h : Field → Field) (m : Message) (ms : List Message) :
    Message.ownFields h { m with messages := ms } = Message.ownFields h m := rfl

theorem ownFields_comp (h k : Field → Field) (m : Message) :
    Message.ownFields h (Message.ownFields k m) = Message.ownFields (h ∘ k) m := by
  simp [Message.ownFields, Function.comp_def]

theorem ownFields_map (h k : Field → Field) (m : Message) :
    Message.ownFields h (m.mapAllFields k) = Message.ownFields (h ∘ k) m := by
  simp [Message.ownFields, Message.mapAllFields, Function.comp_def]

theorem Rewritten.id (D : FileDescriptor) : Rewritten D D (fun _ => id) := ⟨fun _ => rfl, rfl⟩

theorem Rewritten.apply {D D' : FileDescriptor} {H} (h : Rewritten D D' H) (k : Field → Field) (i : MessageIndex) :
    (D'.getMessage i).map (Message.ownFields k) = (D.getMessage i).map (Message.ownFields (k ∘ H i)) := by
  have := congrArg (Option.map (Message.ownFields k)) (h.messages i)
  rw [Option.map_map, Option.map_map] at this
  have e : ∀ g : Field → Field, Message.ownFields k ∘ Message.ownFields g = Message.ownFields (k ∘ g) :=
    fun g => funext fun m => ownFields_comp k g m
  rw [e, e] at this
  exact this

theorem Rewritten.trans {D D' D'' : FileDescriptor} {H K} (h : Rewritten D D' H) (k : Rewritten D' D'' K) :
    Rewritten D D'' (fun i => K i ∘ H i) := by
  refine ⟨fun i => ?_, k.others.trans h.others⟩
  rw [k.messages i, h.apply]

theorem modifyMessage_rewritten (D : FileDescriptor) (v : MessageIndex) (h : Field → Field) :
    Rewritten D (D.modifyMessage v (Message.mapAllFields h)) (fun i => if i = v then h else id) := by
  refine ⟨fun i => ?_, ?_⟩
  · rw [getMessage_modify (Message.ownFields id) (ownFields_messages _) (Message.mapAllFields h) (fun _ => rfl)]
    congr 1
    funext m
    split
    · rw [ownFields_map]; rfl
    · rfl
  · cases v <;> rfl

theorem mapCycle_rewritten (h : Field → Field) (cycle : List MessageIndex) (hn : cycle.Nodup) :
    ∀ D, Rewritten D (mapCycle h cycle D) (fun i => if i ∈ cycle then h else id) := by
  induction cycle with
  | nil =>
    intro D
    simpa [mapCycle] using Rewritten.id D
  | cons v vs ih =>
    intro D
    have hn' := List.nodup_cons.mp hn
    have := (modifyMessage_rewritten D v h).trans (ih hn'.2 (D.modifyMessage v (Message.mapAllFields h)))
    have he : (fun i => (if i ∈ vs then h else id) ∘ (if i = v then h else id)) =
        (fun i => if i ∈ v :: vs then h else (id : Field → Field)) := by
      funext i
      by_cases hiv : i = v
      · subst hiv
        simp [hn'.1]
      · by_cases hm : i ∈ vs <;> simp [hiv, hm]
    rw [he] at this
    exact this

/-! ## The view through fields -/

/-- All fields of the message at `i`. -/
def FileDescriptor.fieldsOf (D : FileDescriptor) (i : MessageIndex) : List Field :=
  ((D.getMessage i).map Message.allFields).getD []

theorem allFields_own (h : Field → Field) (m : Message) : (Message.ownFields h m).allFields = m.allFields.map h := by
  simp [Message.ownFields, Message.allFields, List.map_flatMap, List.flatMap_map]

theorem Rewritten.fieldsOf {D D' : FileDescriptor} {H} (h : Rewritten D D' H) (i : MessageIndex) :
    D'.fieldsOf i = (D.fieldsOf i).map (H i) := by
  have := h.messages i
  unfold FileDescriptor.fieldsOf
  cases hm : D.getMessage i with
  | none =>
    rw [hm] at this
    cases hm' : D'.getMessage i with
    | none => rfl
    | some m' => rw [hm'] at this; cases this
  | some m =>
    rw [hm] at this
    cases hm' : D'.getMessage i with
    | none => rw [hm'] at this; cases this
    | some m' =>
      rw [hm'] at this
      simp only [Option.map_some, Option.some.injEq] at this
      have := congrArg Message.allFields this
      rw [allFields_own, allFields_own] at this
      simpa using this

theorem Rewritten.isSome {D D' : FileDescriptor} {H} (h : Rewritten D D' H) (i : MessageIndex) :
    (D'.getMessage i).isSome = (D.getMessage i).isSome := by
  have := congrArg Option.isSome (h.messages i)
  simpa using this

theorem contains_fields {D : FileDescriptor} {i j : MessageIndex} :
    Contains D i j ↔ (∃ f ∈ D.fieldsOf i, f.boxed = false ∧ f.frequency.isRepeated = false ∧ f.typ = .message j) ∧
      (D.getMessage j).isSome := by
  unfold FileDescriptor.fieldsOf
  constructor
  · rintro ⟨m, f, hm, hf, hb, hr, ht, hj⟩
    exact ⟨⟨f, by simpa [hm] using hf, hb, hr, ht⟩, hj⟩
  · rintro ⟨⟨f, hf, hb, hr, ht⟩, hj⟩
    cases hm : D.getMessage i with
    | none => simp [hm] at hf
    | some m => exact ⟨m, f, hm, by simpa [hm] using hf, hb, hr, ht, hj⟩

/-! ## The two rewriting steps -/

theorem isOptional_not_repeated {q : Frequency} (h : q.isOptional = true) : q.isRepeated = false := by
  cases q <;> first | rfl | cases h

theorem inCycle_iff {cycle : List MessageIndex} {f : Field} :
    f.inCycle cycle = true ↔ ∃ j, f.typ = .message j ∧ j ∈ cycle := by
  unfold Field.inCycle
  cases h : f.typ <;> simp [FieldType.asMessage]

theorem boxOptional_onlyBoxed (cycle : List MessageIndex) (f : Field) : OnlyBoxed f (boxOptional cycle f) := by
  unfold boxOptional
  split
  · rename_i h
    obtain ⟨h1, h2⟩ := Bool.and_eq_true_iff.mp h
    obtain ⟨j, hj, _⟩ := inCycle_iff.mp h2
    exact Or.inr ⟨⟨j, hj⟩, h1, rfl⟩
  · exact Or.inl rfl

theorem OnlyBoxed.trans {f g h : Field} (a : OnlyBoxed f g) (b : OnlyBoxed g h) : OnlyBoxed f h := by
  rcases a with rfl | ⟨hj, ho, rfl⟩
  · exact b
  · rcases b with rfl | ⟨_, _, rfl⟩
    · exact Or.inr ⟨hj, ho, rfl⟩
    · exact Or.inr ⟨hj, ho, rfl⟩

theorem OnlyBoxed.weaken {f g : Field} (a : OnlyBoxed f g) : BoxedOptional f g := by
  rcases a with rfl | ⟨hj, ho, rfl⟩
  · exact Or.inl rfl
  · refine Or.inr ⟨hj, isOptional_not_repeated ho, ho, ?_, rfl⟩
    show f.frequency = f.frequency.optional
    cases hq : f.frequency <;> rw [hq] at ho <;> first | rfl | cases ho

theorem BoxedOptional.trans {f g h : Field} (a : BoxedOptional f g) (b : BoxedOptional g h) : BoxedOptional f h := by
  rcases a with rfl | ⟨hj, hr, ho, hk, he⟩
  · exact b
  · rcases b with rfl | ⟨hj', hr', ho', hk', he'⟩
    · exact Or.inr ⟨hj, hr, ho, hk, he⟩
    · refine Or.inr ⟨hj, hr, ho', by rw [hk', hk]; cases f.frequency <;> rfl, ?_⟩
      rw [he', he]

theorem requiredToOptional_boxedOptional (cycle : List MessageIndex) (f : Field) :
    BoxedOptional f (requiredToOptional cycle f) := by
  unfold requiredToOptional
  split
  · rename_i h
    obtain ⟨h1, h2⟩ := Bool.and_eq_true_iff.mp h
    obtain ⟨j, hj, _⟩ := inCycle_iff.mp h2
    simp only [Bool.not_eq_true', Bool.or_eq_false_iff] at h1
    refine Or.inr ⟨⟨j, hj⟩, h1.2, ?_, ?_, rfl⟩
    · cases f.frequency <;> rfl
    · cases f.frequency <;> rfl
  · exact Or.inl rfl

theorem BoxedOptional.typ {f g : Field} (a : BoxedOptional f g) : g.typ = f.typ := by
  rcases a with rfl | ⟨_, _, _, _, he⟩
  · rfl
  · rw [he]

theorem BoxedOptional.repeated {f g : Field} (a : BoxedOptional f g) : g.frequency.isRepeated = f.frequency.isRepeated := by
  rcases a with rfl | ⟨_, hr, ho, _, he⟩
  · rfl
  · rw [hr, isOptional_not_repeated ho]

theorem BoxedOptional.boxed {f g : Field} (a : BoxedOptional f g) (h : g.boxed = false) : f.boxed = false := by
  rcases a with rfl | ⟨_, _, _, _, he⟩
  · exact h
  · rw [he] at h; cases h

/-- `D'` comes from `D` by rewriting each field `f` of each message `i` as `R i f` allows. -/
def Step (R : MessageIndex → Field → Field → Prop) (D D' : FileDescriptor) : Prop :=
  ∃ H, Rewritten D D' H ∧ ∀ i f, R i f (H i f)

/-- A relation usable in `Step`. -/
structure Pre (R : MessageIndex → Field → Field → Prop) : Prop where
  refl : ∀ i f, R i f f
  trans : ∀ i f g h, R i f g → R i g h → R i f h

theorem Step.refl {R} (hR : Pre R) (D : FileDescriptor) : Step R D D :=
  ⟨fun _ => id, Rewritten.id D, fun i f => hR.refl i f⟩

theorem Step.trans {R} (hR : Pre R) {D D' D'' : FileDescriptor} (a : Step R D D') (b : Step R D' D'') : Step R D D'' := by
  obtain ⟨H, h1, h2⟩ := a
  obtain ⟨K, k1, k2⟩ := b
  exact ⟨_, h1.trans k1, fun i f => hR.trans _ _ _ _ (h2 i f) (k2 i _)⟩

/-- Changed fields refer from a message to one that `S` relates to it. -/
def BO (S : MessageIndex → MessageIndex → Prop) (i : MessageIndex) (f g : Field) : Prop :=
  BoxedOptional f g ∧ (g = f ∨ ∃ j, f.typ = .message j ∧ S i j)

/-- As `BO`, when frequencies may not change. -/
def OB (S : MessageIndex → MessageIndex → Prop) (i : MessageIndex) (f g : Field) : Prop :=
  OnlyBoxed f g ∧ (g = f ∨ ∃ j, f.typ = .message j ∧ S i j)

theorem BO.pre (S) : Pre (BO S) := by
  refine ⟨fun i f => ⟨Or.inl rfl, Or.inl rfl⟩, fun i f g h a b => ⟨a.1.trans b.1, ?_⟩⟩
  rcases a.2 with rfl | h1
  · exact b.2
  · exact Or.inr h1

theorem OB.pre (S) : Pre (OB S) := by
  refine ⟨fun i f => ⟨Or.inl rfl, Or.inl rfl⟩, fun i f g h a b => ⟨a.1.trans b.1, ?_⟩⟩
  rcases a.2 with rfl | h1
  · exact b.2
  · exact Or.inr h1

theorem Step.weaken {S} {D D' : FileDescriptor} (a : Step (OB S) D D') : Step (BO S) D D' := by
  obtain ⟨H, h1, h2⟩ := a
  exact ⟨H, h1, fun i f => ⟨(h2 i f).1.weaken, (h2 i f).2⟩⟩

theorem Step.isSome {R} {D D' : FileDescriptor} (a : Step R D D') (i : MessageIndex) :
    (D'.getMessage i).isSome = (D.getMessage i).isSome := by
  obtain ⟨H, h1, _⟩ := a
  exact h1.isSome i

theorem Step.field_back {R} {D D' : FileDescriptor} (a : Step R D D') {i : MessageIndex} {g : Field}
    (hg : g ∈ D'.fieldsOf i) : ∃ f ∈ D.fieldsOf i, R i f g := by
  obtain ⟨H, h1, h2⟩ := a
  rw [h1.fieldsOf] at hg
  obtain ⟨f, hf, rfl⟩ := List.mem_map.mp hg
  exact ⟨f, hf, h2 i f⟩

theorem Step.field_fwd {R} {D D' : FileDescriptor} (a : Step R D D') {i : MessageIndex} {f : Field}
    (hf : f ∈ D.fieldsOf i) : ∃ g ∈ D'.fieldsOf i, R i f g := by
  obtain ⟨H, h1, h2⟩ := a
  exact ⟨H i f, by rw [h1.fieldsOf]; exact List.mem_map.mpr ⟨f, hf, rfl⟩, h2 i f⟩

/-- Fields of `i` that refer to `j` are all on the heap. -/
def Cut (D : FileDescriptor) (i j : MessageIndex) : Prop :=
  ∀ f ∈ D.fieldsOf i, f.typ = .message j → f.boxed = false → f.frequency.isRepeated = true

theorem Step.cut {S} {D D' : FileDescriptor} (a : Step (BO S) D D') {i j : MessageIndex} (h : Cut D i j) :
    Cut D' i j := by
  intro g hg ht hb
  obtain ⟨f, hf, hr⟩ := a.field_back hg
  rw [hr.1.repeated]
  exact h f hf (by rw [← hr.1.typ]; exact ht) (hr.1.boxed hb)

theorem Cut.not_contains {D : FileDescriptor} {i j : MessageIndex} (h : Cut D i j) : ¬ Contains D i j := by
  intro hc
  obtain ⟨⟨f, hf, hb, hr, ht⟩, _⟩ := contains_fields.mp hc
  rw [h f hf ht hb] at hr
  cases hr

theorem Step.contains {S} {D D' : FileDescriptor} (a : Step (BO S) D D') {i j : MessageIndex} (h : Contains D' i j) :
    Contains D i j := by
  obtain ⟨⟨g, hg, hb, hr, ht⟩, hj⟩ := contains_fields.mp h
  obtain ⟨f, hf, hR⟩ := a.field_back hg
  refine contains_fields.mpr ⟨⟨f, hf, hR.1.boxed hb, ?_, ?_⟩, by rw [← a.isSome]; exact hj⟩
  · rw [← hR.1.repeated]; exact hr
  · rw [← hR.1.typ]; exact ht

/-! ## One cycle -/

theorem isCycle_false {cycle : List MessageIndex} {D : FileDescriptor} :
    isCycle cycle D = false ↔ ∀ i ∈ cycle, ∀ f ∈ D.fieldsOf i, f.boxed = false → ∀ j ∈ cycle, f.typ ≠ .message j := by
  unfold isCycle FileDescriptor.fieldsOf
  rw [List.any_eq_false]
  constructor
  · intro h i hi f hf hb j hj ht
    have := h i hi
    cases hm : D.getMessage i with
    | none => simp [hm] at hf
    | some m =>
      rw [hm] at this hf
      simp only [Option.map_some, Option.getD_some] at hf
      exact this (List.any_eq_true.mpr ⟨f, by simp [hf, hb], inCycle_iff.mpr ⟨j, ht, hj⟩⟩)
  · intro h i hi
    cases hm : D.getMessage i with
    | none => simp
    | some m =>
      simp only [List.any_eq_true, not_exists, not_and]
      intro f hf hc
      obtain ⟨j, ht, hj⟩ := inCycle_iff.mp hc
      simp only [List.mem_filter, Bool.not_eq_true'] at hf
      exact h i hi f (by simp [hm, hf.1]) hf.2 j hj ht

/-- The members of a slice are pairwise related by `S`. -/
def Within (S : MessageIndex → MessageIndex → Prop) (cycle : List MessageIndex) : Prop :=
  ∀ i ∈ cycle, ∀ j ∈ cycle, S i j

theorem boxOptional_step {S} {cycle : List MessageIndex} (hn : cycle.Nodup) (hS : Within S cycle) (D : FileDescriptor) :
    Step (OB S) D (mapCycle (boxOptional cycle) cycle D) :=
  ⟨_, mapCycle_rewritten _ _ hn D, fun i f => by
    split
    · rename_i hi
      refine ⟨boxOptional_onlyBoxed cycle f, ?_⟩
      unfold boxOptional
      split
      · rename_i h
        obtain ⟨j, hj, hjc⟩ := inCycle_iff.mp (Bool.and_eq_true_iff.mp h).2
        exact Or.inr ⟨j, hj, hS i hi j hjc⟩
      · exact Or.inl rfl
    · exact ⟨Or.inl rfl, Or.inl rfl⟩⟩

theorem requiredToOptional_step {S} {cycle : List MessageIndex} (hn : cycle.Nodup) (hS : Within S cycle)
    (D : FileDescriptor) : Step (BO S) D (mapCycle (requiredToOptional cycle) cycle D) :=
  ⟨_, mapCycle_rewritten _ _ hn D, fun i f => by
    split
    · rename_i hi
      refine ⟨requiredToOptional_boxedOptional cycle f, ?_⟩
      unfold requiredToOptional
      split
      · rename_i h
        obtain ⟨j, hj, hjc⟩ := inCycle_iff.mp (Bool.and_eq_true_iff.mp h).2
        exact Or.inr ⟨j, hj, hS i hi j hjc⟩
      · exact Or.inl rfl
    · exact ⟨Or.inl rfl, Or.inl rfl⟩⟩

theorem breakCycle_step {S} {e : Bool} {cycle : List MessageIndex} (hn : cycle.Nodup) (hS : Within S cycle)
    {D D' : FileDescriptor} (h : breakCycle e cycle D = .ok D') :
    Step (BO S) D D' ∧ (e = true → Step (OB S) D D') := by
  have h1 := boxOptional_step hn hS D
  unfold breakCycle at h
  simp only at h
  split at h
  · split at h
    · cases h
    · rename_i he
      simp only [Except.ok.injEq] at h
      subst h
      exact ⟨Step.trans (BO.pre S) h1.weaken (requiredToOptional_step hn hS _), fun hc => (he hc).elim⟩
  · simp only [Except.ok.injEq] at h
    subst h
    exact ⟨h1.weaken, fun _ => h1⟩

theorem breakCycle_cut {e : Bool} {cycle : List MessageIndex} (hn : cycle.Nodup) {D D' : FileDescriptor}
    (h : breakCycle e cycle D = .ok D') {i j : MessageIndex} (hi : i ∈ cycle) (hj : j ∈ cycle) : Cut D' i j := by
  unfold breakCycle at h
  simp only at h
  split at h
  · split at h
    · cases h
    · simp only [Except.ok.injEq] at h
      subst h
      intro g hg ht hb
      rw [(mapCycle_rewritten _ _ hn _).fieldsOf, (mapCycle_rewritten _ _ hn _).fieldsOf] at hg
      simp only [hi, if_true, List.map_map, List.mem_map, Function.comp] at hg
      obtain ⟨f, hf, rfl⟩ := hg
      have hin : f.inCycle cycle = true := inCycle_iff.mpr ⟨j, by
        rw [← (boxOptional_onlyBoxed cycle f).weaken.typ,
          ← (requiredToOptional_boxedOptional cycle (boxOptional cycle f)).typ]; exact ht, hj⟩
      have hin2 : (boxOptional cycle f).inCycle cycle = true := by
        unfold Field.inCycle
        rw [(boxOptional_onlyBoxed cycle f).weaken.typ]
        exact hin
      by_cases ho : f.frequency.isOptional = true
      · have h1 : (boxOptional cycle f).boxed = true := by simp [boxOptional, ho, hin]
        have h2 := (requiredToOptional_boxedOptional cycle (boxOptional cycle f)).boxed hb
        rw [h1] at h2; cases h2
      · have h1 : boxOptional cycle f = f := by simp [boxOptional, ho]
        rw [h1] at hb ⊢
        by_cases hr : f.frequency.isRepeated = true
        · rw [(requiredToOptional_boxedOptional cycle f).repeated]; exact hr
        · have : (requiredToOptional cycle f).boxed = true := by simp [requiredToOptional, ho, hr, hin]
          rw [this] at hb; cases hb
  · rename_i hc
    simp only [Except.ok.injEq] at h
    subst h
    intro g hg ht hb
    have := isCycle_false.mp (by simpa using hc) i hi g hg hb j hj ht
    exact this.elim

/-- With `error_cycle` on, a slice passes exactly when it has no field that is neither optional nor boxed. -/
theorem breakCycle_error {cycle : List MessageIndex} (hn : cycle.Nodup) {D : FileDescriptor} :
    (∃ E, breakCycle true cycle D = .error E) ↔ ∃ i ∈ cycle, ∃ j ∈ cycle, ∃ f ∈ D.fieldsOf i, f.typ = .message j ∧
      f.boxed = false ∧ f.frequency.isOptional = false := by
  have key : isCycle cycle (mapCycle (boxOptional cycle) cycle D) = true ↔
      ∃ i ∈ cycle, ∃ j ∈ cycle, ∃ f ∈ D.fieldsOf i, f.typ = .message j ∧
        f.boxed = false ∧ f.frequency.isOptional = false := by
    constructor
    · intro h
      apply Classical.byContradiction
      intro hc
      have : isCycle cycle (mapCycle (boxOptional cycle) cycle D) = false := by
        refine isCycle_false.mpr fun i hi g hg hb j hj ht => hc ?_
        rw [(mapCycle_rewritten _ _ hn _).fieldsOf] at hg
        simp only [hi, if_true, List.mem_map] at hg
        obtain ⟨f, hf, rfl⟩ := hg
        have htf : f.typ = .message j := by rw [← (boxOptional_onlyBoxed cycle f).weaken.typ]; exact ht
        refine ⟨i, hi, j, hj, f, hf, htf, (boxOptional_onlyBoxed cycle f).weaken.boxed hb, ?_⟩
        cases ho : f.frequency.isOptional with
        | false => rfl
        | true =>
          have : (boxOptional cycle f).boxed = true := by simp [boxOptional, ho, inCycle_iff.mpr ⟨j, htf, hj⟩]
          rw [this] at hb; cases hb
      rw [this] at h; cases h
    · rintro ⟨i, hi, j, hj, f, hf, ht, hb, ho⟩
      cases hcy : isCycle cycle (mapCycle (boxOptional cycle) cycle D) with
      | true => rfl
      | false =>
        exfalso
        refine isCycle_false.mp hcy i hi f ?_ hb j hj ht
        rw [(mapCycle_rewritten _ _ hn _).fieldsOf]
        simp only [hi, if_true, List.mem_map]
        exact ⟨f, hf, by simp [boxOptional, ho]⟩
  rw [← key]
  unfold breakCycle
  simp only [if_true]
  split
  · rename_i h; exact ⟨fun _ => h, fun _ => ⟨_, rfl⟩⟩
  · rename_i h; exact ⟨fun ⟨_, h⟩ => (by cases h), fun h' => (h h').elim⟩

/-! ## The loops -/

theorem forEach_step {α : Type} {R} (hR : Pre R) {body : α → FileDescriptor → Except (List Str) FileDescriptor}
    (xs : List α) (hb : ∀ x ∈ xs, ∀ D D', body x D = .ok D' → Step R D D') :
    ∀ D D', forEach body xs D = .ok D' →
      Step R D D' ∧ ∀ x ∈ xs, ∃ D1 D2, Step R D D1 ∧ body x D1 = .ok D2 ∧ Step R D2 D' := by
  induction xs with
  | nil =>
    intro D D' h
    simp only [forEach, Except.ok.injEq] at h
    subst h
    exact ⟨Step.refl hR _, fun _ h => nomatch h⟩
  | cons x xs ih =>
    intro D D' h
    simp only [forEach] at h
    split at h
    · cases h
    · rename_i D1 h1
      have s1 := hb x (by simp) D D1 h1
      obtain ⟨s2, h2⟩ := ih (fun y hy => hb y (by simp [hy])) D1 D' h
      refine ⟨s1.trans hR s2, fun y hy => ?_⟩
      rcases List.mem_cons.mp hy with rfl | hy
      · exact ⟨D, D1, Step.refl hR _, h1, s2⟩
      · obtain ⟨D2, D3, a, b, c⟩ := h2 y hy
        exact ⟨D2, D3, s1.trans hR a, b, c⟩

theorem forEach_error {α : Type} {R} (hR : Pre R) {body : α → FileDescriptor → Except (List Str) FileDescriptor}
    (xs : List α) (hb : ∀ x ∈ xs, ∀ D D', body x D = .ok D' → Step R D D') :
    ∀ D E, forEach body xs D = .error E → ∃ x ∈ xs, ∃ D1, Step R D D1 ∧ body x D1 = .error E := by
  induction xs with
  | nil => intro D E h; cases h
  | cons x xs ih =>
    intro D E h
    simp only [forEach] at h
    split at h
    · rename_i e h1
      cases h
      exact ⟨x, by simp, D, Step.refl hR _, h1⟩
    · rename_i D1 h1
      obtain ⟨y, hy, D2, a, b⟩ := ih (fun y hy => hb y (by simp [hy])) D1 E h
      exact ⟨y, by simp [hy], D2, (hb x (by simp) D D1 h1).trans hR a, b⟩

theorem take_drop_sublist {scc : List MessageIndex} (i k : Nat) : ((scc.drop i).take k).Sublist scc :=
  (List.take_sublist _ _).trans (List.drop_sublist _ _)

theorem take_drop_nodup {scc : List MessageIndex} (hn : scc.Nodup) (i k : Nat) : ((scc.drop i).take k).Nodup :=
  List.Nodup.sublist (take_drop_sublist i k) hn

theorem Within.slice {S} {scc : List MessageIndex} (hS : Within S scc) (i k : Nat) : Within S ((scc.drop i).take k) :=
  fun a ha b hb => hS a ((take_drop_sublist i k).subset ha) b ((take_drop_sublist i k).subset hb)

theorem mem_cyclesAt {scc : List MessageIndex} {i : Nat} {D : FileDescriptor} {v : MessageIndex} (hv : scc[i]? = some v)
    {k : Nat} : k ∈ cyclesAt scc i D ↔ ∃ f ∈ D.fieldsOf v, ∃ j, f.typ = .message j ∧ (scc.drop i).idxOf? j = some k := by
  unfold cyclesAt FileDescriptor.fieldsOf
  rw [hv, Option.bind_some]
  cases D.getMessage v with
  | none => simp
  | some m =>
    simp only [List.mem_filterMap, Option.map_some, Option.getD_some]
    constructor
    · rintro ⟨j, ⟨f, hf, ht⟩, hk⟩
      refine ⟨f, hf, j, ?_, hk⟩
      cases h : f.typ <;> rw [h] at ht <;> simp [FieldType.asMessage] at ht
      rw [ht]
    · rintro ⟨f, hf, j, ht, hk⟩
      exact ⟨j, ⟨f, hf, by rw [ht]; rfl⟩, hk⟩

theorem idxOf?_some_of_mem {l : List MessageIndex} {j : MessageIndex} (h : j ∈ l) :
    ∃ k, l.idxOf? j = some k ∧ j ∈ l.take (k + 1) := by
  obtain ⟨k, hk⟩ := Option.isSome_iff_exists.mp (List.isSome_idxOf?.mpr h)
  refine ⟨k, hk, ?_⟩
  have := List.idxOf?_eq_some_iff.mp hk
  obtain ⟨h1, h2, _⟩ := this
  rw [List.mem_take_iff_getElem]
  exact ⟨k, by omega, by simpa using h2⟩

theorem head_mem_slice {scc : List MessageIndex} {i : Nat} {v : MessageIndex} (hv : scc[i]? = some v) (k : Nat) :
    v ∈ (scc.drop i).take (k + 1) := by
  rw [List.drop_eq_getElem_cons (by
    by_cases hl : i < scc.length
    · exact hl
    · rw [List.getElem?_eq_none (by omega)] at hv; cases hv)]
  simp only [List.take_succ_cons, List.mem_cons]
  left
  rw [List.getElem?_eq_some_iff] at hv
  exact hv.2.symm

theorem breakVertex_step {S} {e : Bool} {scc : List MessageIndex} (hn : scc.Nodup) (hS : Within S scc) {i : Nat}
    {D D' : FileDescriptor} (h : breakVertex e scc i D = .ok D') :
    Step (BO S) D D' ∧ (e = true → Step (OB S) D D') := by
  unfold breakVertex at h
  constructor
  · exact (forEach_step (BO.pre S) _
      (fun k _ D1 D2 h1 => (breakCycle_step (take_drop_nodup hn _ _) (hS.slice _ _) h1).1) D D' h).1
  · intro he
    exact (forEach_step (OB.pre S) _
      (fun k _ D1 D2 h1 => (breakCycle_step (take_drop_nodup hn _ _) (hS.slice _ _) h1).2 he) D D' h).1

theorem breakVertex_cut {e : Bool} {scc : List MessageIndex} (hn : scc.Nodup) {i : Nat} {v : MessageIndex}
    (hv : scc[i]? = some v) {D D' : FileDescriptor} (h : breakVertex e scc i D = .ok D') {j : MessageIndex}
    (hj : j ∈ scc.drop i) : Cut D' v j := by
  have hS : Within (fun _ _ => True) scc := fun _ _ _ _ => trivial
  unfold breakVertex at h
  have hs := forEach_step (BO.pre _) _
      (fun k _ D1 D2 h1 => (breakCycle_step (take_drop_nodup hn _ _) (hS.slice _ _) h1).1) D D' h
  intro g hg ht hb
  obtain ⟨k, hk, hjk⟩ := idxOf?_some_of_mem hj
  obtain ⟨f, hf, hR⟩ := hs.1.field_back hg
  have hmem : k ∈ cyclesAt scc i D := (mem_cyclesAt hv).mpr ⟨f, hf, j, by rw [← hR.1.typ]; exact ht, hk⟩
  obtain ⟨D1, D2, _, h2, h3⟩ := hs.2 k hmem
  exact (h3.cut (breakCycle_cut (take_drop_nodup hn _ _) h2 (head_mem_slice hv k) hjk)) g hg ht hb

theorem breakScc_step {S} {e : Bool} {scc : List MessageIndex} (hn : scc.Nodup) (hS : Within S scc)
    {D D' : FileDescriptor} (h : forEach (breakVertex e scc) (List.range scc.length) D = .ok D') :
    Step (BO S) D D' ∧ (e = true → Step (OB S) D D') ∧ ∀ i v, scc[i]? = some v → ∀ j ∈ scc.drop i, Cut D' v j := by
  have hs := forEach_step (BO.pre S) _ (fun k _ D1 D2 h1 => (breakVertex_step hn hS h1).1) D D' h
  refine ⟨hs.1, ?_, ?_⟩
  · intro he
    exact (forEach_step (OB.pre S) _ (fun k _ D1 D2 h1 => (breakVertex_step hn hS h1).2 he) D D' h).1
  · intro i v hv j hj
    have hl : i < scc.length := by
      by_cases hl : i < scc.length
      · exact hl
      · rw [List.getElem?_eq_none (by omega)] at hv; cases hv
    obtain ⟨D1, D2, _, h2, h3⟩ := hs.2 i (by simp [hl])
    exact h3.cut (breakVertex_cut hn hv h2 hj)

theorem wf_of_rank {D : FileDescriptor} {l : List MessageIndex} (hn : l.Nodup)
    (h : ∀ i j, Contains D i j → ∃ a b, l = a ++ i :: b ∧ j ∈ a) : AllSized D := by
  refine Subrelation.wf (r := InvImage (· < ·) (fun i => l.idxOf i)) ?_ (InvImage.wf _ Nat.lt_wfRel.wf)
  intro j i hc
  obtain ⟨a, b, rfl, hj⟩ := h i j hc
  have hia : i ∉ a := fun hi => (List.nodup_append.mp hn).2.2 i hi i (by simp) rfl
  simp only [InvImage]
  have := List.idxOf_lt_length_iff.mpr hj
  simp only [List.idxOf_append, hj, hia, if_true, if_false, List.idxOf_cons_self]
  omega

/-- Members of a common component. -/
def Same (cs : List (List MessageIndex)) (i j : MessageIndex) : Prop := ∃ c ∈ cs, i ∈ c ∧ j ∈ c

theorem within_same {cs : List (List MessageIndex)} {c : List MessageIndex} (h : c ∈ cs) : Within (Same cs) c :=
  fun _ hi _ hj => ⟨c, h, hi, hj⟩

theorem breakCycles_step {e : Bool} {D D' : FileDescriptor} {cs : List (List MessageIndex)} (hc : MsgComponents D cs)
    (h : forEach (fun scc => forEach (breakVertex e scc) (List.range scc.length)) cs D = .ok D') :
    Step (BO (Same cs)) D D' ∧ (e = true → Step (OB (Same cs)) D D') ∧ AllSized D' := by
  have hnc : ∀ c ∈ cs, c.Nodup := fun c hm => (List.sublist_flatten_of_mem hm).nodup hc.partition.1
  have hs := forEach_step (BO.pre (Same cs)) _
      (fun c hcm D1 D2 h1 => (breakScc_step (hnc c hcm) (within_same hcm) h1).1) D D' h
  refine ⟨hs.1, ?_, ?_⟩
  · intro he
    exact (forEach_step (OB.pre (Same cs)) _
      (fun c hcm D1 D2 h1 => (breakScc_step (hnc c hcm) (within_same hcm) h1).2.1 he) D D' h).1
  · refine wf_of_rank hc.partition.1 ?_
    intro i j hij
    have hD := hs.1.contains hij
    have hi : (D.getMessage i).isSome := by
      obtain ⟨m, _, hm, _⟩ := hD
      rw [hm]; rfl
    obtain ⟨c, hcm, hic⟩ := List.mem_flatten.mp ((hc.partition.2 i).mpr hi)
    obtain ⟨l, l', hl⟩ := List.append_of_mem hcm
    obtain ⟨a, b, hab⟩ := List.append_of_mem hic
    refine ⟨l.flatten ++ a, b ++ l'.flatten, ?_, ?_⟩
    · rw [hl, hab]; simp
    · rcases hc.closed l c l' hl i hic j hD with hjc | ⟨c', hc', hj⟩
      · rw [hab] at hjc
        rcases List.mem_append.mp hjc with hja | hjb
        · simp [hja]
        · exfalso
          obtain ⟨D1, D2, _, h2, h3⟩ := hs.2 c hcm
          refine (h3.cut ((breakScc_step (hnc c hcm) (within_same hcm) h2).2.2 a.length i (by rw [hab]; simp) j
            ?_)).not_contains hij
          rw [hab]
          simpa using hjb
      · exact List.mem_append_left _ (List.mem_flatten.mpr ⟨c', hc', hj⟩)

theorem mutual_same {D : FileDescriptor} {cs : List (List MessageIndex)} (hc : MsgComponents D cs) {x y : MessageIndex}
    (hx : (D.getMessage x).isSome) (h1 : Path (Contains D) x y) (h2 : Path (Contains D) y x) : Same cs x y := by
  have key : ∀ l c l', cs = l ++ c :: l' → ∀ a ∈ c, ∀ b, Path (Contains D) a b → b ∈ c ∨ ∃ c' ∈ l, b ∈ c' := by
    intro l c l' he a ha b hp
    induction hp with
    | refl => exact Or.inl ha
    | step _ e ih =>
      rcases ih with h | ⟨c', hc', h⟩
      · exact hc.closed l c l' he _ h _ e
      · right
        obtain ⟨l1, l2, hl⟩ := List.append_of_mem hc'
        rcases hc.closed l1 c' (l2 ++ c :: l') (by rw [he, hl]; simp) _ h _ e with h' | ⟨c'', hc'', h'⟩
        · exact ⟨c', hc', h'⟩
        · exact ⟨c'', by rw [hl]; simp [hc''], h'⟩
  obtain ⟨c, hcm, hxc⟩ := List.mem_flatten.mp ((hc.partition.2 x).mpr hx)
  obtain ⟨l, l', hl⟩ := List.append_of_mem hcm
  rcases key l c l' hl x hxc y h1 with h | ⟨c', hc', h⟩
  · exact ⟨c, hcm, hxc, h⟩
  · exfalso
    obtain ⟨l1, l2, hl1⟩ := List.append_of_mem hc'
    have hx' : x ∈ l.flatten := by
      rcases key l1 c' (l2 ++ c :: l') (by rw [hl, hl1]; simp) y h x h2 with h' | ⟨c'', hc'', h'⟩
      · exact List.mem_flatten.mpr ⟨c', hc', h'⟩
      · exact List.mem_flatten.mpr ⟨c'', by rw [hl1]; simp [hc''], h'⟩
    have hn := hc.partition.1
    rw [hl] at hn
    simp only [List.flatten_append, List.flatten_cons] at hn
    exact (List.nodup_append.mp hn).2.2 x hx' x (by simp [hxc]) rfl

theorem forEach_ok {α : Type} {body : α → FileDescriptor → Except (List Str) FileDescriptor}
    (hb : ∀ x D, ∃ D', body x D = .ok D') (xs : List α) : ∀ D, ∃ D', forEach body xs D = .ok D' := by
  induction xs with
  | nil => exact fun D => ⟨D, rfl⟩
  | cons x xs ih =>
    intro D
    obtain ⟨D1, h1⟩ := hb x D
    obtain ⟨D2, h2⟩ := ih D1
    exact ⟨D2, by simp only [forEach, h1, h2]⟩

theorem breakCycle_ok (cycle : List MessageIndex) (D : FileDescriptor) : ∃ D', breakCycle false cycle D = .ok D' := by
  unfold breakCycle
  simp only
  split
  · exact ⟨_, rfl⟩
  · exact ⟨_, rfl⟩

/-! ## `error_cycle` on -/

theorem mem_fieldsOf {D : FileDescriptor} {i : MessageIndex} {f : Field} :
    f ∈ D.fieldsOf i ↔ ∃ m, D.getMessage i = some m ∧ f ∈ m.allFields := by
  unfold FileDescriptor.fieldsOf
  cases D.getMessage i with
  | none => simp
  | some m => simp

theorem mentionsFirmly_fields {D : FileDescriptor} {i j : MessageIndex} :
    MentionsFirmly D i j ↔ ∃ f ∈ D.fieldsOf i, f.typ = .message j ∧ f.boxed = false ∧ f.frequency.isOptional = false := by
  constructor
  · rintro ⟨m, f, hm, hf, hb, ho, ht⟩
    exact ⟨f, mem_fieldsOf.mpr ⟨m, hm, hf⟩, ht, hb, ho⟩
  · rintro ⟨f, hf, ht, hb, ho⟩
    obtain ⟨m, hm, hf⟩ := mem_fieldsOf.mp hf
    exact ⟨m, f, hm, hf, hb, ho, ht⟩

theorem mentions_fields {D : FileDescriptor} {i j : MessageIndex} :
    Mentions D i j ↔ ∃ f ∈ D.fieldsOf i, f.typ = .message j := by
  constructor
  · rintro ⟨m, f, hm, hf, ht⟩
    exact ⟨f, mem_fieldsOf.mpr ⟨m, hm, hf⟩, ht⟩
  · rintro ⟨f, hf, ht⟩
    obtain ⟨m, hm, hf⟩ := mem_fieldsOf.mp hf
    exact ⟨m, f, hm, hf, ht⟩

theorem OnlyBoxed.firm {f g : Field} (h : OnlyBoxed f g) (hb : f.boxed = false) (ho : f.frequency.isOptional = false) :
    g = f := by
  rcases h with rfl | ⟨_, ho', _⟩
  · rfl
  · rw [ho] at ho'; cases ho'

theorem OnlyBoxed.unboxed {f g : Field} (h : OnlyBoxed f g) (hb : g.boxed = false) : g = f := by
  rcases h with rfl | ⟨_, _, he⟩
  · rfl
  · rw [he] at hb; cases hb

theorem Step.firmly {S} {D D' : FileDescriptor} (a : Step (OB S) D D') {i j : MessageIndex} :
    MentionsFirmly D' i j ↔ MentionsFirmly D i j := by
  rw [mentionsFirmly_fields, mentionsFirmly_fields]
  constructor
  · rintro ⟨g, hg, ht, hb, ho⟩
    obtain ⟨f, hf, hR⟩ := a.field_back hg
    have := hR.1.unboxed hb
    subst this
    exact ⟨_, hf, ht, hb, ho⟩
  · rintro ⟨f, hf, ht, hb, ho⟩
    obtain ⟨g, hg, hR⟩ := a.field_fwd hf
    have := hR.1.firm hb ho
    subst this
    exact ⟨_, hg, ht, hb, ho⟩

theorem Step.mentions {S} {D D' : FileDescriptor} (a : Step (BO S) D D') {i j : MessageIndex} :
    Mentions D' i j ↔ Mentions D i j := by
  rw [mentions_fields, mentions_fields]
  constructor
  · rintro ⟨g, hg, ht⟩
    obtain ⟨f, hf, hR⟩ := a.field_back hg
    exact ⟨f, hf, by rw [← hR.1.typ]; exact ht⟩
  · rintro ⟨f, hf, ht⟩
    obtain ⟨g, hg, hR⟩ := a.field_fwd hf
    exact ⟨g, hg, by rw [hR.1.typ]; exact ht⟩

/-- A slice `v .. w` of a component such that `v` mentions `w` and, within the slice, a message firmly mentions another. -/
def BadSlice (D : FileDescriptor) (c : List MessageIndex) : Prop :=
  ∃ l s r v w, c = l ++ s ++ r ∧ s.head? = some v ∧ s.getLast? = some w ∧ Mentions D v w ∧
    ∃ i ∈ s, ∃ j ∈ s, MentionsFirmly D i j

theorem slice_eq {c : List MessageIndex} {p k : Nat} {v w : MessageIndex} (hv : c[p]? = some v)
    (hw : (c.drop p).idxOf? w = some k) :
    ∃ l r, c = l ++ (c.drop p).take (k + 1) ++ r ∧ ((c.drop p).take (k + 1)).head? = some v ∧
      ((c.drop p).take (k + 1)).getLast? = some w := by
  obtain ⟨h1, h2, _⟩ := List.idxOf?_eq_some_iff.mp hw
  refine ⟨c.take p, (c.drop p).drop (k + 1), ?_, ?_, ?_⟩
  · rw [List.append_assoc, List.take_append_drop, List.take_append_drop]
  · rw [List.head?_take, List.head?_drop]
    simpa using hv
  · rw [List.getLast?_take]
    simp only [Nat.add_one_ne_zero, if_false, Nat.add_sub_cancel]
    rw [List.getElem?_eq_getElem h1, h2]
    rfl

theorem slice_idx {l s r : List MessageIndex} {v w : MessageIndex} (hn : (l ++ s ++ r).Nodup) (hv : s.head? = some v)
    (hw : s.getLast? = some w) :
    (l ++ s ++ r)[l.length]? = some v ∧ ((l ++ s ++ r).drop l.length).idxOf? w = some (s.length - 1) ∧
      ((l ++ s ++ r).drop l.length).take (s.length - 1 + 1) = s := by
  have hne : s ≠ [] := by rintro rfl; cases hv
  have hlen : 0 < s.length := List.length_pos_iff.mpr hne
  have hdrop : (l ++ s ++ r).drop l.length = s ++ r := by simp
  refine ⟨?_, ?_, ?_⟩
  · rw [List.append_assoc, List.getElem?_append_right (Nat.le_refl _), Nat.sub_self, List.getElem?_append_left hlen,
      ← List.head?_eq_getElem?]
    exact hv
  · rw [hdrop]
    obtain ⟨s', hs'⟩ := List.getLast?_eq_some_iff.mp hw
    rw [List.idxOf?_eq_some_iff]
    rw [hs'] at hn ⊢
    refine ⟨by simp, by simp, ?_⟩
    intro j hj
    simp only [List.length_append, List.length_singleton, Nat.add_sub_cancel] at hj
    intro he
    have hn' : ((s' ++ [w]) ++ r).Nodup := by
      rw [List.append_assoc] at hn
      exact (List.nodup_append.mp hn).2.1
    have hn'' : (s' ++ [w]).Nodup := (List.nodup_append.mp hn').1
    have hmem : w ∈ s' := by
      have : (s' ++ [w] ++ r)[j]'(by simp; omega) = s'[j] := by
        simp only [List.append_assoc]
        rw [List.getElem_append_left hj]
      rw [this] at he
      rw [← he]; exact List.getElem_mem hj
    exact (List.nodup_append.mp hn'').2.2 w hmem w (by simp) rfl
  · rw [hdrop, Nat.sub_add_cancel hlen, List.take_left]

theorem breakVertex_error {S} {c : List MessageIndex} (hn : c.Nodup) (hS : Within S c) {p : Nat} {D : FileDescriptor} {E}
    (h : breakVertex true c p D = .error E) : BadSlice D c := by
  unfold breakVertex at h
  obtain ⟨k, hk, D1, hs, he⟩ := forEach_error (OB.pre S) _
    (fun k _ D1 D2 h1 => (breakCycle_step (take_drop_nodup hn _ _) (hS.slice _ _) h1).2 rfl) D E h
  cases hv : c[p]? with
  | none => simp [cyclesAt, hv] at hk
  | some v =>
    obtain ⟨f, hf, j, ht, hj⟩ := (mem_cyclesAt hv).mp hk
    obtain ⟨l, r, h1, h2, h3⟩ := slice_eq hv hj
    obtain ⟨a, ha, b, hb, g, hg, hx⟩ := (breakCycle_error (take_drop_nodup hn _ _)).mp ⟨E, he⟩
    exact ⟨l, _, r, v, j, h1, h2, h3, mentions_fields.mpr ⟨f, hf, ht⟩, a, ha, b, hb,
      hs.firmly.mp (mentionsFirmly_fields.mpr ⟨g, hg, hx⟩)⟩

theorem badSlice_error {S} {l s r : List MessageIndex} {v w : MessageIndex} (hn : (l ++ s ++ r).Nodup)
    (hS : Within S (l ++ s ++ r)) (hv : s.head? = some v) (hw : s.getLast? = some w) {D D' : FileDescriptor}
    (hm : Mentions D v w) (hf : ∃ i ∈ s, ∃ j ∈ s, MentionsFirmly D i j) :
    breakVertex true (l ++ s ++ r) l.length D ≠ .ok D' := by
  intro h
  obtain ⟨h1, h2, h3⟩ := slice_idx hn hv hw
  unfold breakVertex at h
  obtain ⟨f, hff, ht⟩ := mentions_fields.mp hm
  obtain ⟨D1, D2, hs, hb, _⟩ := (forEach_step (OB.pre S) _
    (fun k _ D1 D2 h1 => (breakCycle_step (take_drop_nodup hn _ _) (hS.slice _ _) h1).2 rfl) D D' h).2 (s.length - 1)
    ((mem_cyclesAt h1).mpr ⟨f, hff, w, ht, h2⟩)
  rw [h3] at hb
  obtain ⟨i, hi, j, hj, hij⟩ := hf
  obtain ⟨g, hg, hx⟩ := mentionsFirmly_fields.mp (hs.firmly.mpr hij)
  have hns : s.Nodup := by
    rw [List.append_assoc] at hn
    exact (List.nodup_append.mp (List.nodup_append.mp hn).2.1).1
  obtain ⟨E, hE⟩ := (breakCycle_error hns).mpr ⟨i, hi, j, hj, g, hg, hx⟩
  rw [hE] at hb; cases hb

theorem breakCycles_error_iff {D : FileDescriptor} {cs : List (List MessageIndex)} (hc : MsgComponents D cs) :
    (∃ E, forEach (fun scc => forEach (breakVertex true scc) (List.range scc.length)) cs D = .error E) ↔
      ∃ c ∈ cs, BadSlice D c := by
  have hnc : ∀ c ∈ cs, c.Nodup := fun c hm => (List.sublist_flatten_of_mem hm).nodup hc.partition.1
  have hvs : ∀ c ∈ cs, ∀ p, p ∈ List.range c.length → ∀ D1 D2, breakVertex true c p D1 = .ok D2 → Step (OB (Same cs)) D1 D2 :=
    fun c hcm p _ D1 D2 h1 => (breakVertex_step (hnc c hcm) (within_same hcm) h1).2 rfl
  have hcs : ∀ c ∈ cs, ∀ D1 D2, forEach (breakVertex true c) (List.range c.length) D1 = .ok D2 → Step (OB (Same cs)) D1 D2 :=
    fun c hcm D1 D2 h1 => (breakScc_step (hnc c hcm) (within_same hcm) h1).2.1 rfl
  constructor
  · rintro ⟨E, h⟩
    obtain ⟨c, hcm, D1, hs, he⟩ := forEach_error (OB.pre (Same cs)) cs hcs D E h
    obtain ⟨p, _, D2, hs2, he2⟩ := forEach_error (OB.pre (Same cs)) _ (hvs c hcm) D1 E he
    refine ⟨c, hcm, ?_⟩
    have hs' := Step.trans (OB.pre _) hs hs2
    obtain ⟨l, s, r, v, w, h1, h2, h3, h4, i, hi, j, hj, hij⟩ := breakVertex_error (hnc c hcm) (within_same hcm) he2
    exact ⟨l, s, r, v, w, h1, h2, h3, hs'.weaken.mentions.mp h4, i, hi, j, hj, hs'.firmly.mp hij⟩
  · rintro ⟨c, hcm, l, s, r, v, w, rfl, h2, h3, h4, i, hi, j, hj, hij⟩
    cases hr : forEach (fun scc => forEach (breakVertex true scc) (List.range scc.length)) cs D with
    | error E => exact ⟨E, rfl⟩
    | ok D' =>
      exfalso
      obtain ⟨D1, D2, hs, hb, _⟩ := (forEach_step (OB.pre (Same cs)) cs hcs D D' hr).2 _ hcm
      have hne : s ≠ [] := by rintro rfl; cases h2
      have hlen : 0 < s.length := List.length_pos_iff.mpr hne
      obtain ⟨D3, D4, hs2, hb2, _⟩ := (forEach_step (OB.pre (Same cs)) _ (hvs _ hcm) D1 D2 hb).2 l.length
        (by simp; omega)
      have hs' := Step.trans (OB.pre _) hs hs2
      exact badSlice_error (hnc _ hcm) (within_same hcm) h2 h3 (hs'.weaken.mentions.mpr h4)
        ⟨i, hi, j, hj, hs'.firmly.mpr hij⟩ hb2

end QP.Pbrs
