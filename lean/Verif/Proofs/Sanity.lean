import Verif.Proofs.Compile
/-!
# The checks, and the enums through the passes
-/

set_option linter.unusedVariables false

namespace QP.Pbrs
open Spec

theorem checkAll_ok {α : Type} {check : α → Except CompileError Unit} {l : List α} :
    checkAll check l = .ok () ↔ ∀ a ∈ l, check a = .ok () := by
  induction l with
  | nil => simp [checkAll]
  | cons a l ih =>
    simp only [checkAll]
    cases h : check a with
    | error e => simp [h]
    | ok u => simp [h, ih]

theorem checkAll_error {α : Type} {check : α → Except CompileError Unit} {l : List α} {e : CompileError}
    (h : checkAll check l = .error e) : ∃ a ∈ l, check a = .error e := by
  induction l with
  | nil => cases h
  | cons a l ih =>
    simp only [checkAll] at h
    cases h1 : check a with
    | error e' =>
      rw [h1] at h
      cases h
      exact ⟨a, List.mem_cons_self, h1⟩
    | ok u =>
      rw [h1] at h
      obtain ⟨b, hb, h2⟩ := ih h
      exact ⟨b, List.mem_cons_of_mem _ hb, h2⟩

theorem reserved_iff (m : Message) (f : Field) :
    m.isReserved f = true ↔ ReservedIn m f := by
  unfold ReservedIn Message.isReserved
  cases m.reservedNames <;> cases m.reservedNums <;> simp

/-- The check of one field, in words. -/
theorem sanityCheck_cases (D : FileDescriptor) (m : Message) (f : Field) :
    (ReservedIn m f ∧ f.sanityCheck D m = .error (.invalidMessage m.name)) ∨
    (¬ ReservedIn m f ∧
      ((∃ e d, f.typ = .enum e ∧ f.default = some d ∧
          ((D.getEnum e = none ∧ f.sanityCheck D m = .error .panic) ∨
           ∃ en, D.getEnum e = some en ∧
             ((d ∉ en.fields.map (·.1) ∧ f.sanityCheck D m = .error (.invalidDefaultEnum m.name f.name)) ∨
              (d ∈ en.fields.map (·.1) ∧ f.sanityCheck D m = .ok ())))) ∨
       ((¬ ∃ e d, f.typ = .enum e ∧ f.default = some d) ∧ f.sanityCheck D m = .ok ()))) := by
  by_cases hr : ReservedIn m f
  · refine Or.inl ⟨hr, ?_⟩
    unfold Field.sanityCheck
    rw [if_pos ((reserved_iff m f).mpr hr)]
  · refine Or.inr ⟨hr, ?_⟩
    unfold Field.sanityCheck
    rw [if_neg (fun h => hr ((reserved_iff m f).mp h))]
    cases hd : f.default with
    | none => exact Or.inr ⟨(fun ⟨_, _, _, h⟩ => by cases h), rfl⟩
    | some d =>
      cases ht : f.typ with
      | enum e =>
        refine Or.inl ⟨e, d, rfl, rfl, ?_⟩
        simp only
        cases he : D.getEnum e with
        | none => exact Or.inl ⟨rfl, rfl⟩
        | some en =>
          refine Or.inr ⟨en, rfl, ?_⟩
          by_cases hm : d ∈ en.fields.map (·.1)
          · refine Or.inr ⟨hm, ?_⟩
            simp only
            rw [if_pos]
            obtain ⟨p, hp, rfl⟩ := List.mem_map.mp hm
            exact List.any_eq_true.mpr ⟨p, hp, by simp⟩
          · refine Or.inl ⟨hm, ?_⟩
            simp only
            rw [if_neg]
            intro h
            obtain ⟨p, hp, h⟩ := List.any_eq_true.mp h
            exact hm (List.mem_map.mpr ⟨p, hp, by simpa using h⟩)
      | _ => exact Or.inr ⟨(fun ⟨_, _, h, _⟩ => by cases h), rfl⟩

/-- What a message keeps through the passes before the checks. -/
structure Kept (m m2 : Message) : Prop where
  name : m2.name = m.name
  nums : m2.reservedNums = m.reservedNums
  names : m2.reservedNames = m.reservedNames
  enums : m2.enums.map (·.fields) = m.enums.map (·.fields)

theorem resolve_kept {D D1 : FileDescriptor} (h : D.resolveTypes = .ok D1) {i : MessageIndex} {m1 : Message}
    (hm : D1.getMessage i = some m1) : ∃ m, D.getMessage i = some m ∧ Kept m m1 := by
  obtain ⟨H, h1, _⟩ := C52_resolves h
  have := h1 i
  rw [hm] at this
  obtain ⟨m, hm2, e⟩ := Option.map_eq_some_iff.mp this.symm
  refine ⟨m, hm2, ?_, ?_, ?_, ?_⟩
  · exact (congrArg Message.name e).symm
  · exact (congrArg Message.reservedNums e).symm
  · exact (congrArg Message.reservedNames e).symm
  · have := congrArg (fun m : Message => m.enums.map (·.fields)) e
    simp only [Message.ownFields, Message.at, List.map_map] at this
    rw [← this]
    refine List.ext_getElem? fun k => ?_
    simp only [List.getElem?_map, List.getElem?_zipIdx]
    cases m.enums[k]? <;> rfl

theorem rewritten_kept {D D1 : FileDescriptor} {H : MessageIndex → Field → Field} (h : Rewritten D D1 H) {i : MessageIndex}
    {m1 : Message} (hm : D1.getMessage i = some m1) : ∃ m, D.getMessage i = some m ∧ Kept m m1 ∧ m1.index = m.index := by
  have := h.messages i
  rw [hm] at this
  obtain ⟨m, hm2, e⟩ := Option.map_eq_some_iff.mp this.symm
  refine ⟨m, hm2, ⟨?_, ?_, ?_, ?_⟩, (congrArg Message.index e).symm⟩
  · exact (congrArg Message.name e).symm
  · exact (congrArg Message.reservedNums e).symm
  · exact (congrArg Message.reservedNames e).symm
  · exact (congrArg (fun m : Message => m.enums.map (·.fields)) e).symm

theorem Kept.trans {a b c : Message} (h : Kept a b) (k : Kept b c) : Kept a c :=
  ⟨k.name.trans h.name, k.nums.trans h.nums, k.names.trans h.names, k.enums.trans h.enums⟩

/-- The values of an enum. -/
def FileDescriptor.enumValues (D : FileDescriptor) (e : EnumIndex) : Option (List (Str × Int)) :=
  (D.getEnum e).map (·.fields)

theorem enumValues_top (D : FileDescriptor) (k : Nat) : D.enumValues ⟨[], k⟩ = (D.enums.map (·.fields))[k]? := by
  simp [FileDescriptor.enumValues, FileDescriptor.getEnum]

theorem enumValues_nested (D : FileDescriptor) (j : Nat) (js : List Nat) (k : Nat) :
    D.enumValues ⟨j :: js, k⟩ = (D.getMessage (j :: js)).bind fun m => (m.enums.map (·.fields))[k]? := by
  simp only [FileDescriptor.enumValues, FileDescriptor.getEnum, List.isEmpty_cons, Bool.false_eq_true, if_false]
  cases D.getMessage (j :: js) with
  | none => rfl
  | some m => simp

theorem enumValues_of {D D' : FileDescriptor} (ht : D'.enums.map (·.fields) = D.enums.map (·.fields))
    (hs : ∀ i, (D'.getMessage i).isSome = (D.getMessage i).isSome)
    (hm : ∀ i m', D'.getMessage i = some m' → ∃ m, D.getMessage i = some m ∧ m'.enums.map (·.fields) = m.enums.map (·.fields))
    (e : EnumIndex) : D'.enumValues e = D.enumValues e := by
  obtain ⟨i, k⟩ := e
  cases i with
  | nil => rw [enumValues_top, enumValues_top, ht]
  | cons j js =>
    rw [enumValues_nested, enumValues_nested]
    cases h' : D'.getMessage (j :: js) with
    | none =>
      have := hs (j :: js)
      rw [h'] at this
      cases h : D.getMessage (j :: js) with
      | none => rfl
      | some m => rw [h] at this; cases this
    | some m' =>
      obtain ⟨m, h, he⟩ := hm _ _ h'
      rw [h]
      simp only [Option.bind_some, he]

/-- The passes before the checks. -/
theorem before_checks {D D1 D2 : FileDescriptor} {e : Bool} (h1 : D.resolveTypes = .ok D1)
    (h2 : D1.breakCycles e = some (.ok D2)) :
    (∃ H, Via D D2 H ∧ ∀ i m, D.getMessage i = some m → ∀ f ∈ m.allFields,
      (H i f).name = f.name ∧ (H i f).number = f.number ∧ (H i f).default = f.default ∧ ResolvesTo D m f.typ (H i f).typ) ∧
    (∀ i m2, D2.getMessage i = some m2 → ∃ m, D.getMessage i = some m ∧ Kept m m2) ∧
    (∀ x, D2.enumValues x = D.enumValues x) := by
  have hI := C52_positions h1
  obtain ⟨H1, v1, r1⟩ := resolve_via h1
  obtain ⟨_, H2, hR, hB⟩ := breakCycles_ok hI h2
  have hk : ∀ i m2, D2.getMessage i = some m2 → ∃ m, D.getMessage i = some m ∧ Kept m m2 := by
    intro i m2 hm2
    obtain ⟨m1, hm1, k1, _⟩ := rewritten_kept hR hm2
    obtain ⟨m, hm, k⟩ := resolve_kept h1 hm1
    exact ⟨m, hm, k.trans k1⟩
  have v := v1.trans hR.via
  refine ⟨⟨_, v, ?_⟩, hk, ?_⟩
  · intro i m hm f hf
    obtain ⟨t, ht, e1⟩ := r1 i m hm f hf
    simp only [Function.comp]
    rcases hB i (H1 i f) with h | ⟨_, _, _, _, h⟩
    · rw [h, e1]; exact ⟨rfl, rfl, rfl, ht⟩
    · rw [h, e1]; exact ⟨rfl, rfl, rfl, ht⟩
  · refine enumValues_of ?_ v.isSome ?_
    · obtain ⟨_, _, _, _, he⟩ := C52_resolves h1
      have h3 := congrArg FileDescriptor.enums hR.others
      simp only at h3
      rw [h3, he]
      refine List.ext_getElem? fun k => ?_
      simp only [List.getElem?_map, List.getElem?_zipIdx]
      cases D.enums[k]? <;> rfl
    · intro i m2 hm2
      obtain ⟨m, hm, k⟩ := hk i m2 hm2
      exact ⟨m, hm, k.enums⟩

theorem mem_messages {D : FileDescriptor} {m : Message} (h : m ∈ D.messages) : ∃ k, D.getMessage [k] = some m := by
  obtain ⟨k, hk, rfl⟩ := List.mem_iff_getElem.mp h
  exact ⟨k, by simp [FileDescriptor.getMessage, Message.descend, hk]⟩

theorem of_getMessage {D : FileDescriptor} {k : Nat} {m : Message} (h : D.getMessage [k] = some m) : m ∈ D.messages := by
  simp only [FileDescriptor.getMessage, Option.bind_eq_some_iff, Message.descend, Option.some.injEq] at h
  obtain ⟨m', h1, rfl⟩ := h
  exact List.mem_of_getElem? h1

theorem reserved_kept {m m2 : Message} (k : Kept m m2) {f f2 : Field} (h1 : f2.name = f.name) (h2 : f2.number = f.number) :
    ReservedIn m2 f2 ↔ ReservedIn m f := by
  unfold ReservedIn
  rw [k.nums, k.names, h1, h2]

theorem badDefault_kept {D D2 : FileDescriptor} (he : ∀ x, D2.enumValues x = D.enumValues x) {e : EnumIndex} {en2 : Enumerator}
    (h : D2.getEnum e = some en2) : ∃ en, D.getEnum e = some en ∧ en.fields = en2.fields := by
  have := he e
  unfold FileDescriptor.enumValues at this
  rw [h] at this
  obtain ⟨en, h1, h2⟩ := Option.map_eq_some_iff.mp this.symm
  exact ⟨en, h1, h2⟩

end QP.Pbrs
