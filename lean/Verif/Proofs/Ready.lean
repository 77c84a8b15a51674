import Verif.Proofs.Sanity
import Verif.Proofs.Lifetime
import Verif.Props.Messages
/-!
# What the later parts of pb-rs may assume about a compiled schema
-/

set_option linter.unusedVariables false

namespace QP.Pbrs
open Spec

/-- The position of a message and the numbers of its enums. -/
def Message.label (m : Message) : MessageIndex × List (List Int) := (m.index, m.enums.map (·.fields.map (·.2)))

def SameLabels (D D' : FileDescriptor) : Prop :=
  (∀ i, (D'.getMessage i).map Message.label = (D.getMessage i).map Message.label) ∧
    D'.enums.map (·.fields.map (·.2)) = D.enums.map (·.fields.map (·.2)) ∧ D'.syntax_ = D.syntax_

theorem SameLabels.refl (D : FileDescriptor) : SameLabels D D := ⟨fun _ => rfl, rfl, rfl⟩

theorem SameLabels.trans {a b c : FileDescriptor} (h : SameLabels a b) (k : SameLabels b c) : SameLabels a c :=
  ⟨fun i => (k.1 i).trans (h.1 i), k.2.1.trans h.2.1, k.2.2.trans h.2.2⟩

theorem label_mapDeep (h : Field → Field) (m : Message) : (m.mapDeep h).label = m.label := by
  cases m; rfl

theorem labels_mapDeep (h : Field → Field) (D : FileDescriptor) :
    SameLabels D { D with messages := Message.mapDeepAll h D.messages } := by
  refine ⟨fun i => ?_, rfl, rfl⟩
  rw [getMessage_mapDeep, Option.map_map]
  congr 1
  funext m
  exact label_mapDeep h m

theorem labels_top (h : Field → Field) (D : FileDescriptor) :
    SameLabels D { D with messages := D.messages.map (Message.mapAllFields h) } := by
  refine ⟨fun i => ?_, rfl, rfl⟩
  cases i with
  | nil => rfl
  | cons j js =>
    simp only [FileDescriptor.getMessage, List.getElem?_map]
    cases D.messages[j]? with
    | none => rfl
    | some m =>
      cases js with
      | nil => rfl
      | cons k ks => rfl

theorem label_sanitizeNames (m : Message) : m.sanitizeNames.label = m.label := by
  cases m
  simp [Message.label, Message.sanitizeNames, Enumerator.sanitizeNames, Function.comp_def]

theorem labels_sanitizeNames (D : FileDescriptor) : SameLabels D D.sanitizeNames := by
  refine ⟨fun i => ?_, ?_, rfl⟩
  · rw [getMessage_sanitizeNames, Option.map_map]
    congr 1
    funext m
    exact label_sanitizeNames m
  · simp [FileDescriptor.sanitizeNames, Enumerator.sanitizeNames, Function.comp_def]

theorem labels_setDefaults {path : FieldType → Str} {D D' : FileDescriptor} (h : D.setDefaults path = some D') :
    SameLabels D D' := by
  unfold FileDescriptor.setDefaults at h
  simp only at h
  split at h
  · cases h
  · rename_i ms hms
    cases h
    have e := sanitizeDefaultsAll_eq _ _ _ hms
    subst e
    split
    · exact ((labels_top _ D).trans (labels_mapDeep (defaulted path) _)).trans (labels_top _ _)
    · exact (labels_mapDeep (defaulted path) D).trans (labels_top _ _)

theorem labels_convert (cfg : Config) (D : FileDescriptor) :
    SameLabels D (if cfg.dontUseCow then (D.convertFieldTypes .stringCow .string_).convertFieldTypes .bytesCow .bytes_ else D) := by
  split
  · exact (labels_mapDeep _ D).trans (labels_mapDeep _ _)
  · exact SameLabels.refl D

theorem SameLabels.indexOk {D D' : FileDescriptor} (h : SameLabels D D') (hI : IndexOk D) : IndexOk D' := by
  intro i m' hm'
  have := h.1 i
  rw [hm'] at this
  obtain ⟨m, hm, e⟩ := Option.map_eq_some_iff.mp this.symm
  have := hI i m hm
  exact (congrArg Prod.fst e).symm.trans this

theorem SameLabels.enums {D D' : FileDescriptor} (h : SameLabels D D') (e : EnumIndex) :
    (D'.getEnum e).map (·.fields.map (·.2)) = (D.getEnum e).map (·.fields.map (·.2)) := by
  obtain ⟨i, k⟩ := e
  cases i with
  | nil =>
    have := congrArg (·[k]?) h.2.1
    simpa [FileDescriptor.getEnum] using this
  | cons j js =>
    simp only [FileDescriptor.getEnum, List.isEmpty_cons, Bool.false_eq_true, if_false]
    have := h.1 (j :: js)
    cases h1 : D'.getMessage (j :: js) with
    | none =>
      cases h2 : D.getMessage (j :: js) with
      | none => rfl
      | some m => rw [h1, h2] at this; cases this
    | some m' =>
      cases h2 : D.getMessage (j :: js) with
      | none => rw [h1, h2] at this; cases this
      | some m =>
        rw [h1, h2] at this
        simp only [Option.map_some, Option.some.injEq, Message.label, Prod.mk.injEq] at this
        have := congrArg (·[k]?) this.2
        simpa using this

/-- The passes after the checks. -/
theorem after_checks {path : FileDescriptor → FieldType → Str} {cfg : Config} {D D1 D2 D3 D4 D' : FileDescriptor}
    (S : Stages path cfg D D1 D2 D3 D4 D') : SameLabels D2 D' ∧ ∃ K, Via D2 D' K ∧ ∀ i f, (K i f).boxed = f.boxed ∧
      (K i f).frequency = f.frequency ∧ (K i f).typ = if cfg.dontUseCow then f.typ.owned else f.typ := by
  constructor
  · have l := labels_convert cfg D2
    rw [← S.convert] at l
    rw [S.names]
    exact (l.trans (labels_setDefaults S.defaults)).trans (labels_sanitizeNames D4)
  · have v3 := convert_stage cfg D2
    rw [← S.convert] at v3
    have v4 := setDefaults_via S.defaults
    have v5 := sanitizeNames_via D4
    rw [← S.names] at v5
    refine ⟨_, (v3.trans v4).trans v5, fun i f => ?_⟩
    simp only [Function.comp]
    generalize hf1 : ({ f with typ := if cfg.dontUseCow = true then f.typ.owned else f.typ } : Field) = f1
    have h1 : f1.boxed = f.boxed ∧ f1.frequency = f.frequency ∧ f1.typ = if cfg.dontUseCow then f.typ.owned else f.typ := by
      subst hf1; exact ⟨rfl, rfl, rfl⟩
    generalize hf2 : (if D3.syntax_ = Syntax.proto3 ∧ List.length i = 1 then f1.repeatedAsPacked else f1) = f2
    have h2 : f2.boxed = f1.boxed ∧ f2.frequency = f1.frequency ∧ f2.typ = f1.typ := by
      subst hf2
      split
      · unfold Field.repeatedAsPacked
        split <;> exact ⟨rfl, rfl, rfl⟩
      · exact ⟨rfl, rfl, rfl⟩
    have hd := defaulted_fields (path D3) f2
    have h3 : (defaulted (path D3) f2).boxed = f2.boxed ∧ (defaulted (path D3) f2).frequency = f2.frequency ∧
        (defaulted (path D3) f2).typ = f2.typ := by rw [hd]; exact ⟨rfl, rfl, rfl⟩
    generalize defaulted (path D3) f2 = f3 at h3
    generalize hf4 : (if i.length = 1 then f3.unsetPackedNonPrimitive else f3) = f4
    have h4 : f4.boxed = f3.boxed ∧ f4.frequency = f3.frequency ∧ f4.typ = f3.typ := by
      subst hf4
      split
      · unfold Field.unsetPackedNonPrimitive
        split <;> exact ⟨rfl, rfl, rfl⟩
      · exact ⟨rfl, rfl, rfl⟩
    exact ⟨by rw [h4.1, h3.1, h2.1, h1.1], by rw [h4.2.1, h3.2.1, h2.2.1, h1.2.1], by rw [h4.2.2, h3.2.2, h2.2.2, h1.2.2]⟩

theorem compile_indexOk {path : FileDescriptor → FieldType → Str} {cfg : Config} {D D' : FileDescriptor}
    (h : D.compile path cfg = .ok D') : IndexOk D' := by
  obtain ⟨D1, D2, D3, D4, S⟩ := compile_stages h
  have hI := C52_positions S.resolve
  obtain ⟨_, H2, hR, _⟩ := breakCycles_ok hI S.cycles
  refine (after_checks S).1.indexOk ?_
  intro i m2 hm2
  obtain ⟨m1, hm1, _, e⟩ := rewritten_kept hR hm2
  rw [e]
  exact hI i m1 hm1

theorem compile_allSized {path : FileDescriptor → FieldType → Str} {cfg : Config} {D D' : FileDescriptor}
    (h : D.compile path cfg = .ok D') : AllSized D' := by
  obtain ⟨D1, D2, D3, D4, S⟩ := compile_stages h
  have hI := C52_positions S.resolve
  obtain ⟨hA, _⟩ := breakCycles_ok hI S.cycles
  obtain ⟨_, K, v, hK⟩ := after_checks S
  refine Subrelation.wf ?_ hA
  rintro j i ⟨m', f', hm', hf', hb, hr, ht, hj⟩
  obtain ⟨m, hm, _, _, ha⟩ := v.message hm'
  rw [ha] at hf'
  obtain ⟨f, hf, rfl⟩ := List.mem_map.mp hf'
  obtain ⟨k1, k2, k3⟩ := hK i f
  refine ⟨m, f, hm, hf, by rw [← k1]; exact hb, by rw [← k2]; exact hr, ?_, ?_⟩
  · rw [k3] at ht
    split at ht
    · exact (owned_message _ _).mp ht
    · exact ht
  · rw [← v.isSome]; exact hj

theorem compile_enums {path : FileDescriptor → FieldType → Str} {cfg : Config} {D D' : FileDescriptor}
    (h : D.compile path cfg = .ok D') (e : EnumIndex) :
    (D'.getEnum e).map (·.fields.map (·.2)) = (D.getEnum e).map (·.fields.map (·.2)) := by
  obtain ⟨D1, D2, D3, D4, S⟩ := compile_stages h
  obtain ⟨_, _, hE⟩ := before_checks S.resolve S.cycles
  rw [(after_checks S).1.enums e]
  have := congrArg (Option.map (List.map Prod.snd)) (hE e)
  simpa [FileDescriptor.enumValues, Function.comp_def] using this

theorem compile_syntax {path : FileDescriptor → FieldType → Str} {cfg : Config} {D D' : FileDescriptor}
    (h : D.compile path cfg = .ok D') : D'.syntax_ = D.syntax_ := by
  obtain ⟨D1, D2, D3, D4, S⟩ := compile_stages h
  have hI := C52_positions S.resolve
  have h3 := stage3_syntax S hI
  have h4 := (labels_setDefaults S.defaults).2.2
  rw [S.names]
  exact (labels_sanitizeNames D4).2.2.trans (h4.trans h3)

/-- A declared name stands for a message that exists, or for an enum that exists. -/
theorem Means.target {D : FileDescriptor} {m : Message} {n : Str} {t : FieldType} (h : Means D m n t) :
    (∃ j, t = .message j ∧ (D.getMessage j).isSome) ∨ (∃ e, t = .enum e ∧ (D.getEnum e).isSome) := by
  obtain ⟨_, c, _, _, hd, _⟩ := h
  cases hd with
  | message i m hm _ => exact Or.inl ⟨i, rfl, by rw [hm]; rfl⟩
  | nested i m k e hm he _ =>
    refine Or.inr ⟨⟨i, k⟩, rfl, ?_⟩
    unfold FileDescriptor.getEnum
    cases i with
    | nil => cases hm
    | cons j js => simp [hm, he]
  | top k e he _ => exact Or.inr ⟨⟨[], k⟩, rfl, by simp [FileDescriptor.getEnum, he]⟩

/-- A resolved type that is no map. -/
theorem resolvesOne_cases {D : FileDescriptor} {m : Message} {t t' : FieldType} (h : ResolvesOne D m t t') (hr : t.rawOne = true) :
    (∃ j, t' = .message j ∧ (D.getMessage j).isSome) ∨ (∃ e, t' = .enum e ∧ (D.getEnum e).isSome) ∨
      (t' = t ∧ (∀ n, t ≠ .messageOrEnum n)) := by
  cases t with
  | messageOrEnum n =>
    rcases Means.target h with h | h
    · exact Or.inl h
    · exact Or.inr (Or.inl h)
  | message _ => cases hr
  | enum _ => cases hr
  | map _ _ => cases hr
  | _ => exact Or.inr (Or.inr ⟨h, fun n hn => by cases hn⟩)

theorem one_ok {D : FileDescriptor} {m : Message} {t t' : FieldType} (h : ResolvesOne D m t t') (hr : t.rawOne = true) :
    (∀ j, MessageType j t' → (D.getMessage j).isSome) ∧ t'.noNames := by
  rcases resolvesOne_cases h hr with ⟨j, rfl, hj⟩ | ⟨e, rfl, _⟩ | ⟨rfl, hn⟩
  · exact ⟨(fun k hk => by cases hk; exact hj), trivial⟩
  · exact ⟨(fun k hk => by cases hk), trivial⟩
  · cases t' with
    | messageOrEnum n => exact absurd rfl (hn n)
    | message _ => cases hr
    | enum _ => cases hr
    | map _ _ => cases hr
    | _ => exact ⟨(fun k hk => by cases hk), trivial⟩

theorem ownedOne_ok {t : FieldType} {P : MessageIndex → Prop} (h : (∀ j, MessageType j t → P j) ∧ t.noNames) :
    (∀ j, MessageType j t.ownedOne → P j) ∧ t.ownedOne.noNames := by
  cases t with
  | stringCow => exact ⟨(fun k hk => by cases hk), trivial⟩
  | bytesCow => exact ⟨(fun k hk => by cases hk), trivial⟩
  | _ => exact h

theorem owned_ok {t : FieldType} {P : MessageIndex → Prop} (h : (∀ j, MessageType j t → P j) ∧ t.noNames) :
    (∀ j, MessageType j t.owned → P j) ∧ t.owned.noNames := by
  cases t with
  | map k v =>
    have hk := ownedOne_ok (t := k) (P := P) ⟨fun j hj => h.1 j (.key v hj), h.2.1⟩
    have hv := ownedOne_ok (t := v) (P := P) ⟨fun j hj => h.1 j (.value k hj), h.2.2⟩
    refine ⟨fun j hj => ?_, hk.2, hv.2⟩
    cases hj with
    | key _ hj => exact hk.1 j hj
    | value _ hj => exact hv.1 j hj
  | stringCow => exact ⟨(fun k hk => by cases hk), trivial⟩
  | bytesCow => exact ⟨(fun k hk => by cases hk), trivial⟩
  | _ => exact h

theorem resolvesTo_one {D : FileDescriptor} {m : Message} {t t' : FieldType} (hm : t.isMap = false) (h : ResolvesTo D m t t') :
    ResolvesOne D m t t' := by
  cases t with
  | map _ _ => cases hm
  | _ => exact h

theorem resolved_ok {D : FileDescriptor} {m : Message} {t t' : FieldType} (h : ResolvesTo D m t t') (hr : t.raw = true) :
    (∀ j, MessageType j t' → (D.getMessage j).isSome) ∧ t'.noNames := by
  cases t with
  | map k v =>
    obtain ⟨k', v', rfl, hk, hv⟩ := h
    simp only [FieldType.raw, Bool.and_eq_true] at hr
    have hk := one_ok hk hr.1
    have hv := one_ok hv hr.2
    refine ⟨fun j hj => ?_, hk.2, hv.2⟩
    cases hj with
    | key _ hj => exact hk.1 j hj
    | value _ hj => exact hv.1 j hj
  | _ => exact one_ok (resolvesTo_one rfl h) hr

theorem compile_refsOk {path : FileDescriptor → FieldType → Str} {cfg : Config} {D D' : FileDescriptor} (hP : Parsed D)
    (h : D.compile path cfg = .ok D') : RefsOk D' := by
  obtain ⟨H, v, hv⟩ := compile_via h
  intro i m' hm' f' hf'
  obtain ⟨m, hm, _, _, ha⟩ := v.message hm'
  rw [ha] at hf'
  obtain ⟨f, hf, rfl⟩ := List.mem_map.mp hf'
  obtain ⟨t, ht, e⟩ := (hv i m hm f hf).typ
  have := resolved_ok ht (hP.raw i m hm f hf)
  rw [e]
  have hp : (∀ j, MessageType j t → (D'.getMessage j).isSome) ∧ t.noNames :=
    ⟨fun j hj => by rw [v.isSome]; exact this.1 j hj, this.2⟩
  split
  · exact owned_ok hp
  · exact hp

theorem compile_boxedSane {path : FileDescriptor → FieldType → Str} {cfg : Config} {D D' : FileDescriptor} (hP : Parsed D)
    (h : D.compile path cfg = .ok D') : BoxedSane D' ∧
      ∀ i m, D'.getMessage i = some m → ∀ f ∈ m.allFields, f.boxed = true → f.frequency.isOptional = true := by
  obtain ⟨H, v, hv⟩ := compile_via h
  have key : ∀ i m, D'.getMessage i = some m → ∀ f ∈ m.allFields, f.boxed = true →
      (∃ j, f.typ = .message j) ∧ f.frequency.isOptional = true := by
    intro i m' hm' f' hf' hb
    obtain ⟨m, hm, _, _, ha⟩ := v.message hm'
    rw [ha] at hf'
    obtain ⟨f, hf, rfl⟩ := List.mem_map.mp hf'
    rcases (hv i m hm f hf).boxed with h1 | h1
    · rw [h1, hP.boxed i m hm f hf] at hb; cases hb
    · exact h1
  exact ⟨fun i m hm f hf hb => (key i m hm f hf hb).1, fun i m hm f hf hb => (key i m hm f hf hb).2⟩

end QP.Pbrs

namespace QP.Gen
open QP.Pbrs Spec

theorem arms_fields (cfg : Config) (m : Message) : (arms cfg m).map (·.field) = m.allFields.filter (·.visible cfg) := by
  have aux : ∀ (l : List Member) (n : Nat), ((l.zipIdx n).flatMap fun (mem, j) =>
      match mem with
      | .field f => [(⟨j, f, Option.none⟩ : Arm)]
      | .oneof fs => fs.zipIdx.map fun (f, i) => ⟨j, f, Option.some i⟩).map (·.field) =
      l.flatMap fun mem => match mem with | .field f => [f] | .oneof fs => fs := by
    intro l
    induction l with
    | nil => intro n; rfl
    | cons a l ih =>
      intro n
      simp only [List.zipIdx_cons, List.flatMap_cons, List.map_append, ih]
      congr 1
      cases a with
      | field f => rfl
      | oneof fs =>
        simp only [List.map_map]
        refine List.ext_getElem? fun k => ?_
        simp only [List.getElem?_map, List.getElem?_zipIdx]
        cases fs[k]? <;> rfl
  refine Eq.trans (aux (members cfg m) 0) ?_
  unfold members Message.allFields
  rw [List.flatMap_append, List.filter_append, List.filter_flatMap]
  congr 1
  · induction m.fields.filter (·.visible cfg) with
    | nil => rfl
    | cons f fs ih => simp only [List.map_cons, List.flatMap_cons, ih, List.singleton_append]
  · rw [List.flatMap_map]

end QP.Gen
