import Verif.Proofs.Passes
/-!
# The passes together
-/

set_option linter.unusedVariables false

namespace QP.Pbrs
open Spec

theorem owned_eq (t : FieldType) : (t.convert .stringCow .string_).convert .bytesCow .bytes_ = t.owned := by
  have one : ∀ k : FieldType, (if (if k = .stringCow then FieldType.string_ else k) = .bytesCow then FieldType.bytes_
      else (if k = .stringCow then FieldType.string_ else k)) = k.ownedOne := by
    intro k
    cases k <;> simp [FieldType.ownedOne]
  cases t with
  | map k v => simp only [FieldType.convert, reduceCtorEq, if_false, FieldType.owned, one]
  | _ => simp [FieldType.convert, FieldType.owned, FieldType.ownedOne]

theorem breakCycles_ok {D D' : FileDescriptor} {e : Bool} (hI : IndexOk D) (h : D.breakCycles e = some (.ok D')) :
    AllSized D' ∧ ∃ H, Rewritten D D' H ∧ ∀ i f, BoxedOptional f (H i f) := by
  cases e with
  | false =>
    obtain ⟨D'', H, h1, h2, h3, h4⟩ := C49_finite_size D hI
    rw [h1] at h
    cases h
    exact ⟨h2, H, h3, fun i f => (h4 i f).1⟩
  | true =>
    obtain ⟨h2, H, h3, h4⟩ := C50_ok_sound_partial D D' hI h
    refine ⟨h2, H, h3, fun i f => ?_⟩
    exact (h4 i f).weaken

/-- The stages of a successful compilation. -/
structure Stages (path : FileDescriptor → FieldType → Str) (cfg : Config) (D D1 D2 D3 D4 D' : FileDescriptor) : Prop where
  resolve : D.resolveTypes = .ok D1
  cycles : D1.breakCycles cfg.errorCycle = some (.ok D2)
  sane : D2.sanityChecks = .ok ()
  convert : D3 = if cfg.dontUseCow then (D2.convertFieldTypes .stringCow .string_).convertFieldTypes .bytesCow .bytes_ else D2
  defaults : D3.setDefaults (path D3) = some D4
  names : D' = D4.sanitizeNames

theorem compile_stages {path : FileDescriptor → FieldType → Str} {cfg : Config} {D D' : FileDescriptor}
    (h : D.compile path cfg = .ok D') : ∃ D1 D2 D3 D4, Stages path cfg D D1 D2 D3 D4 D' := by
  unfold FileDescriptor.compile at h
  split at h
  · cases h
  · split at h
    · cases h
    · rename_i D1 h1
      split at h
      · cases h
      · cases h
      · rename_i D2 h2
        split at h
        · cases h
        · rename_i u h3
          simp only at h
          split at h
          · cases h
          · rename_i D4 h4
            cases h
            exact ⟨D1, D2, _, D4, h1, h2, h3, rfl, h4, rfl⟩

theorem resolve_via {D D1 : FileDescriptor} (h : D.resolveTypes = .ok D1) :
    ∃ H, Via D D1 H ∧ ∀ i m, D.getMessage i = some m → ∀ f ∈ m.allFields,
      ∃ t, ResolvesTo D m f.typ t ∧ H i f = { f with typ := t } := by
  obtain ⟨H, h1, h2, h3, h4⟩ := C52_resolves h
  refine ⟨H, ?_, h2⟩
  intro i
  have := congrArg (Option.map (fun m : Message => (m.fields, m.oneofs.map (·.fields)))) (h1 i)
  rw [Option.map_map, Option.map_map] at this
  unfold FileDescriptor.fieldsAt
  rw [Option.map_map]
  refine Eq.trans ?_ (this.trans ?_)
  · cases D1.getMessage i <;> simp [Message.ownFields, Function.comp]
  · cases D.getMessage i <;> simp [Message.ownFields, Message.at, Function.comp]

theorem convert_stage (cfg : Config) (D2 : FileDescriptor) :
    Via D2 (if cfg.dontUseCow then (D2.convertFieldTypes .stringCow .string_).convertFieldTypes .bytesCow .bytes_ else D2)
      (fun _ f => { f with typ := if cfg.dontUseCow then f.typ.owned else f.typ }) := by
  split
  · rename_i hc
    refine Via.congr ((convert_via .stringCow .string_ D2).trans (convert_via .bytesCow .bytes_ _)) fun i f => ?_
    simp only [Function.comp, owned_eq]
  · exact Via.congr (Via.id D2) fun i f => rfl

/-- The text of the default of a field of type `t`. -/
def rewritten (path : FieldType → Str) (t : FieldType) (d : Str) : Str := (sanitizeText path t d).getD d

theorem defaulted_fields (path : FieldType → Str) (f : Field) :
    defaulted path f = { f with default := f.default.map (rewritten path f.typ) } := by
  obtain ⟨name, fr, typ, num, d, pk, bx, dp⟩ := f
  unfold defaulted Field.sanitizeDefault rewritten
  cases d with
  | none => rfl
  | some d =>
    simp only
    cases hs : sanitizeText path typ d with
    | none => simp [hs]
    | some d' => simp [hs]

theorem convert_syntax (a b : FieldType) (D : FileDescriptor) : (D.convertFieldTypes a b).syntax_ = D.syntax_ := rfl

theorem stage3_syntax {path : FileDescriptor → FieldType → Str} {cfg : Config} {D D1 D2 D3 D4 D' : FileDescriptor}
    (S : Stages path cfg D D1 D2 D3 D4 D') (hI : IndexOk D1) : D3.syntax_ = D.syntax_ := by
  have h1 : D1.syntax_ = D.syntax_ := by
    obtain ⟨_, _, _, h, _⟩ := C52_resolves S.resolve
    have := congrArg FileDescriptor.syntax_ h
    exact this
  obtain ⟨_, _, h2, _⟩ := breakCycles_ok hI S.cycles
  have h2 := congrArg FileDescriptor.syntax_ h2.others
  rw [S.convert]
  split
  · exact h2.trans h1
  · exact h2.trans h1

theorem owned_message (t : FieldType) (j : MessageIndex) : t.owned = .message j ↔ t = .message j := by
  cases t <;> simp [FieldType.owned, FieldType.ownedOne]

theorem repeated_of_optional {q : Frequency} (h : q.isOptional = true) : q.isRepeated = false := by
  cases q <;> first | rfl | cases h

theorem packed_repeated (f : Field) : f.repeatedAsPacked.packed =
    if f.packed = none ∧ f.frequency.isRepeated = true then some true else f.packed := by
  unfold Field.repeatedAsPacked
  cases hp : f.packed <;> cases hr : f.frequency.isRepeated <;> simp [hp]

theorem packed_unset (f : Field) : f.unsetPackedNonPrimitive.packed =
    if f.typ.isPrimitive = false then none else f.packed := by
  unfold Field.unsetPackedNonPrimitive
  cases hp : f.packed <;> cases hr : f.typ.isPrimitive <;> simp [hp]

/-- The four stages on one field. -/
theorem field_compiled {D : FileDescriptor} {cfg : Config} {i : MessageIndex} {m : Message} {f f1 f2 : Field} {s : Syntax}
    (hs : s = D.syntax_) {path : FieldType → Str} {t : FieldType} (ht : ResolvesTo D m f.typ t) (h1 : f1 = { f with typ := t })
    (h2 : BoxedOptional f1 f2) (f3 : Field) (h3 : f3 = { f2 with typ := if cfg.dontUseCow then f2.typ.owned else f2.typ })
    (f4 f5 f6 f' : Field) (h4 : f4 = if s = .proto3 ∧ i.length = 1 then f3.repeatedAsPacked else f3)
    (h5 : f5 = defaulted path f4) (h6 : f6 = if i.length = 1 then f5.unsetPackedNonPrimitive else f5)
    (h7 : f' = { f6 with name := sanitizeKeyword f6.name }) :
    FieldCompiled D cfg i m f f' ∧ f'.default = f.default.map (rewritten path f'.typ) ∧ f'.name = sanitizeKeyword f.name := by
  have e2 : f2.number = f.number ∧ f2.deprecated = f.deprecated ∧ f2.default = f.default ∧ f2.typ = t ∧
      f2.packed = f.packed ∧ f2.frequency.isRepeated = f.frequency.isRepeated ∧
      ((f2.frequency = f.frequency ∧ f2.boxed = f.boxed) ∨
        ((∃ j, t = .message j) ∧ f2.boxed = true ∧ f.frequency.isRepeated = false ∧ f2.frequency.isOptional = true)) ∧
      (f2.frequency = f.frequency ∨ f2.frequency = f.frequency.optional) := by
    rcases h2 with h2 | ⟨hj, hr, ho, hk, h2⟩
    · subst h2 h1
      exact ⟨rfl, rfl, rfl, rfl, rfl, rfl, Or.inl ⟨rfl, rfl⟩, Or.inl rfl⟩
    · have hb : f2.boxed = true := by rw [h2]
      rw [h1] at h2 hj hr hk
      refine ⟨by rw [h2], by rw [h2], by rw [h2], by rw [h2], by rw [h2], ?_, Or.inr ⟨hj, hb, hr, ho⟩, Or.inr hk⟩
      rw [repeated_of_optional ho]
      exact hr.symm
  obtain ⟨a1, a2, a3, a4, a5, a6, a7, a8⟩ := e2
  have e3 : f3.number = f.number ∧ f3.deprecated = f.deprecated ∧ f3.default = f.default ∧
      f3.typ = (if cfg.dontUseCow then t.owned else t) ∧ f3.packed = f.packed ∧ f3.frequency = f2.frequency ∧
      f3.boxed = f2.boxed := by
    subst h3
    exact ⟨a1, a2, a3, by rw [a4], a5, rfl, rfl⟩
  obtain ⟨b1, b2, b3, b4, b5, b6, b7⟩ := e3
  have e4 : f4 = { f3 with packed := f4.packed } := by
    rw [h4]
    unfold Field.repeatedAsPacked
    split
    · split <;> rfl
    · rfl
  have p4 : f4.packed = if s = .proto3 ∧ i.length = 1 ∧ f.packed = none ∧ f.frequency.isRepeated = true then some true
      else f.packed := by
    rw [h4]
    by_cases hx : s = .proto3 ∧ i.length = 1
    · rw [if_pos hx, packed_repeated, b5, b6, a6]
      simp only [hx.1, hx.2, true_and]
    · rw [if_neg hx, if_neg (fun h => hx ⟨h.1, h.2.1⟩), b5]
  obtain ⟨d, hd0⟩ : ∃ d, d = f4.default.map (rewritten path f4.typ) := ⟨_, rfl⟩
  have hd1 : d.isSome = f4.default.isSome := by rw [hd0]; simp
  have hd2 : defaulted path f4 = { f4 with default := d } := by rw [hd0]; exact defaulted_fields path f4
  have e5 : f5 = { f3 with packed := f4.packed, default := d } := by rw [h5, hd2, e4]
  have e6 : f6 = { f3 with packed := f6.packed, default := d } := by
    rw [h6]
    unfold Field.unsetPackedNonPrimitive
    split
    · split
      · rw [e5]
      · exact e5 ▸ rfl
    · exact e5 ▸ rfl
  have t6 : f5.typ = f3.typ := by rw [e5]
  have q5 : f5.packed = f4.packed := by rw [e5]
  have p6 : f6.packed = if i.length = 1 then packing D.syntax_ f f3.typ else f.packed := by
    rw [h6]
    by_cases hi : i.length = 1
    · rw [if_pos hi, if_pos hi]
      rw [packed_unset, t6, q5, p4, hs]
      unfold packing
      simp only [hi, true_and]
    · rw [if_neg hi, if_neg hi, q5, p4]
      exact if_neg (fun h => hi h.2.1)
  have e7 : f' = { f3 with packed := f6.packed, default := d, name := f'.name } := by
    rw [h7, e6]
  have n7 : f'.number = f3.number ∧ f'.deprecated = f3.deprecated ∧ f'.default = d ∧ f'.typ = f3.typ ∧
      f'.packed = f6.packed ∧ f'.frequency = f3.frequency ∧ f'.boxed = f3.boxed := by
    rw [e7]; exact ⟨rfl, rfl, rfl, rfl, rfl, rfl, rfl⟩
  obtain ⟨c1, c2, c3, c4, c5, c6, c7⟩ := n7
  have hd1' : d.isSome = f.default.isSome := by
    rw [hd1, e4]; exact congrArg Option.isSome b3
  have hmsg : (∃ j, t = .message j) → ∃ j, f'.typ = .message j := by
    rintro ⟨j, hj⟩
    refine ⟨j, ?_⟩
    rw [c4, b4, hj]
    split <;> rfl
  have hd3 : f'.default = f.default.map (rewritten path f'.typ) := by
    rw [c3, hd0, c4, e4]
    exact congrArg (Option.map _) b3
  have hn : f'.name = sanitizeKeyword f.name := by
    rw [h7]
    show sanitizeKeyword f6.name = _
    rw [e6]
    show sanitizeKeyword f3.name = _
    rw [h3]
    show sanitizeKeyword f2.name = _
    rcases h2 with h2 | ⟨_, _, _, _, h2⟩
    · rw [h2, h1]
    · rw [h2, h1]
  refine ⟨⟨c1.trans b1, c2.trans b2, by rw [c3, hd1'], ⟨t, ht, c4.trans b4⟩, ?_, by rw [c6, b6]; exact a8, ?_, by rw [c5, p6, c4]⟩, hd3, hn⟩
  · rcases a7 with ⟨x, _⟩ | ⟨x, y, z, w⟩
    · exact Or.inl (by rw [c6, b6, x])
    · exact Or.inr ⟨hmsg x, by rw [c7, b7, y], z, by rw [c6, b6, w]⟩
  · rcases a7 with ⟨_, x⟩ | ⟨x, y, z, w⟩
    · exact Or.inl (by rw [c7, b7, x])
    · exact Or.inr ⟨hmsg x, by rw [c6, b6, w]⟩

/-- What becomes of each field, of its default and of its name. -/
theorem compile_fields {path : FileDescriptor → FieldType → Str} {cfg : Config} {D D' : FileDescriptor}
    (h : D.compile path cfg = .ok D') :
    ∃ D1 D2 D3 D4 H, Stages path cfg D D1 D2 D3 D4 D' ∧ Via D D' H ∧ ∀ i m, D.getMessage i = some m → ∀ f ∈ m.allFields,
      FieldCompiled D cfg i m f (H i f) ∧ (H i f).default = f.default.map (rewritten (path D3) (H i f).typ) ∧
        (H i f).name = sanitizeKeyword f.name := by
  obtain ⟨D1, D2, D3, D4, S⟩ := compile_stages h
  have hI := C52_positions S.resolve
  obtain ⟨H1, v1, r1⟩ := resolve_via S.resolve
  obtain ⟨_, H2, hR, hB⟩ := breakCycles_ok hI S.cycles
  have v2 := hR.via
  have v3 := convert_stage cfg D2
  rw [← S.convert] at v3
  have v4 := setDefaults_via S.defaults
  have v5 := sanitizeNames_via D4
  rw [← S.names] at v5
  refine ⟨D1, D2, D3, D4, _, S, (((v1.trans v2).trans v3).trans v4).trans v5, ?_⟩
  intro i m hm f hf
  obtain ⟨t, ht, h1⟩ := r1 i m hm f hf
  exact field_compiled (stage3_syntax S hI) (i := i) ht h1 (hB i (H1 i f)) _ rfl _ _ _ _ rfl rfl rfl rfl

theorem compile_via {path : FileDescriptor → FieldType → Str} {cfg : Config} {D D' : FileDescriptor}
    (h : D.compile path cfg = .ok D') :
    ∃ H, Via D D' H ∧ ∀ i m, D.getMessage i = some m → ∀ f ∈ m.allFields, FieldCompiled D cfg i m f (H i f) := by
  obtain ⟨_, _, _, _, H, _, hv, hf⟩ := compile_fields h
  exact ⟨H, hv, fun i m hm f hfm => (hf i m hm f hfm).1⟩

end QP.Pbrs
