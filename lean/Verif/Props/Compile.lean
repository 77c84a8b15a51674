import Verif.Proofs.Sanity
import Verif.Proofs.Ready
import Verif.Props.Cycles
/-!
# Compiling a schema (C53, C60, C64-C67)
-/

set_option linter.unusedVariables false

namespace QP.Pbrs
open Spec

/-! ## C53: reserved names and numbers -/

/-- C53, the part that holds: if the schema compiles, no message of the file (not nested) has a field, in a oneof or not,
whose name or number is reserved in it. -/
theorem C53_top_partial {path : FileDescriptor → FieldType → Str} {cfg : Config} {D D' : FileDescriptor}
    (h : D.compile path cfg = .ok D') : ∀ m ∈ D.messages, ∀ f ∈ m.allFields, ¬ ReservedIn m f := by
  obtain ⟨D1, D2, D3, D4, S⟩ := compile_stages h
  obtain ⟨⟨H, v, hv⟩, hk, _⟩ := before_checks S.resolve S.cycles
  intro m hm f hf hr
  obtain ⟨k, hg⟩ := mem_messages hm
  obtain ⟨m2, hm2, _, _, ha⟩ := v.message_fwd hg
  obtain ⟨m', hm', kept⟩ := hk _ _ hm2
  rw [hg] at hm'; cases hm'
  have c := checkAll_ok.mp S.sane m2 (of_getMessage hm2)
  have c := checkAll_ok.mp c (H [k] f) (by rw [ha]; exact List.mem_map_of_mem hf)
  obtain ⟨e1, e2, _⟩ := hv _ _ hg f hf
  rcases sanityCheck_cases D2 m2 (H [k] f) with ⟨_, h1⟩ | ⟨h1, _⟩
  · rw [h1] at c; cases c
  · exact h1 ((reserved_kept kept e1 e2).mpr hr)

/-- The compilation fails with `InvalidMessage` only if that message has such a field. -/
theorem C53_reason {path : FileDescriptor → FieldType → Str} {cfg : Config} {D : FileDescriptor} {n : Str}
    (h : D.compile path cfg = .error (.invalidMessage n)) :
    ∃ m ∈ D.messages, m.name = n ∧ ∃ f ∈ m.allFields, ReservedIn m f := by
  unfold FileDescriptor.compile at h
  split at h
  · cases h
  · split at h
    · cases h
    · rename_i D1 h1
      split at h
      · cases h
      · cases h
      · rename_i D2 h2
        split at h
        · rename_i e h3
          cases h
          obtain ⟨⟨H, v, hv⟩, hk, _⟩ := before_checks h1 h2
          obtain ⟨m2, hm2, h4⟩ := checkAll_error h3
          obtain ⟨f2, hf2, h5⟩ := checkAll_error h4
          obtain ⟨k, hg2⟩ := mem_messages hm2
          obtain ⟨m, hg, _, _, ha⟩ := v.message hg2
          obtain ⟨m', hm', kept⟩ := hk _ _ hg2
          rw [hg] at hm'; cases hm'
          rw [ha] at hf2
          obtain ⟨f, hf, rfl⟩ := List.mem_map.mp hf2
          obtain ⟨e1, e2, _⟩ := hv _ _ hg f hf
          rcases sanityCheck_cases D2 m2 (H [k] f) with ⟨hr, h6⟩ | ⟨_, h6⟩
          · rw [h6] at h5
            cases h5
            exact ⟨m, of_getMessage hg, kept.name.symm, f, hf, (reserved_kept kept e1 e2).mp hr⟩
          · rcases h6 with ⟨e, d, _, _, ⟨_, h6⟩ | ⟨en, _, ⟨_, h6⟩ | ⟨_, h6⟩⟩⟩ | ⟨_, h6⟩ <;> (rw [h6] at h5; cases h5)
        · simp only at h
          split at h <;> cases h

/-! ## C66: defaults of enum fields -/

/-- If the schema compiles, no field of a message of the file (not nested) whose type is an enum has a default that is none
of its values. -/
theorem C66_top_partial {path : FileDescriptor → FieldType → Str} {cfg : Config} {D D' : FileDescriptor}
    (h : D.compile path cfg = .ok D') : ∀ m ∈ D.messages, ∀ f ∈ m.allFields,
      ∃ t, ResolvesTo D m f.typ t ∧ ∀ e en d, t = .enum e → D.getEnum e = some en → f.default = some d →
        d ∈ en.fields.map (·.1) := by
  obtain ⟨D1, D2, D3, D4, S⟩ := compile_stages h
  obtain ⟨⟨H, v, hv⟩, hk, hE⟩ := before_checks S.resolve S.cycles
  intro m hm f hf
  obtain ⟨k, hg⟩ := mem_messages hm
  obtain ⟨m2, hm2, _, _, ha⟩ := v.message_fwd hg
  have c := checkAll_ok.mp S.sane m2 (of_getMessage hm2)
  have c := checkAll_ok.mp c (H [k] f) (by rw [ha]; exact List.mem_map_of_mem hf)
  obtain ⟨e1, e2, e3, e4⟩ := hv _ _ hg f hf
  refine ⟨_, e4, ?_⟩
  intro e en d ht he hd
  rcases sanityCheck_cases D2 m2 (H [k] f) with ⟨_, h1⟩ | ⟨_, ⟨e', d', h1, h2, h3⟩ | ⟨h1, _⟩⟩
  · rw [h1] at c; cases c
  · rw [ht] at h1; cases h1
    rw [e3, hd] at h2; cases h2
    rcases h3 with ⟨_, h3⟩ | ⟨en', h4, ⟨_, h3⟩ | ⟨h3, _⟩⟩
    · rw [h3] at c; cases c
    · rw [h3] at c; cases c
    · obtain ⟨en2, h5, h6⟩ := badDefault_kept hE h4
      rw [he] at h5; cases h5
      rw [h6]; exact h3
  · exact absurd ⟨e, d, ht, e3.trans hd⟩ h1

/-! ## C60: packing -/

/-- C60, the part that holds: in a message of the file (not nested), a field whose compiled type is no scalar or enum has no
packing, a repeated scalar field of a proto3 file without the option is packed, and every other field has what its option
says. -/
theorem C60_top_partial {path : FileDescriptor → FieldType → Str} {cfg : Config} {D D' : FileDescriptor}
    (h : D.compile path cfg = .ok D') {k : Nat} {m m' : Message} (hm : D.messages[k]? = some m)
    (hm' : D'.messages[k]? = some m') :
    m'.allFields.length = m.allFields.length ∧ ∀ p ∈ m.allFields.zip m'.allFields,
      (p.2.typ.isPrimitive = false → p.2.packed = none) ∧
      (p.2.typ.isPrimitive = true → D.syntax_ = .proto3 → p.1.packed = none → p.1.frequency.isRepeated = true →
        p.2.packed = some true) ∧
      (p.2.typ.isPrimitive = true → (D.syntax_ = .proto2 ∨ p.1.packed ≠ none ∨ p.1.frequency.isRepeated = false) →
        p.2.packed = p.1.packed) := by
  obtain ⟨H, v, hv⟩ := compile_via h
  have g : D.getMessage [k] = some m := by simp [FileDescriptor.getMessage, hm, Message.descend]
  have g' : D'.getMessage [k] = some m' := by simp [FileDescriptor.getMessage, hm', Message.descend]
  obtain ⟨m1, h1, _, _, ha⟩ := v.message g'
  rw [g] at h1; cases h1
  refine ⟨by rw [ha]; simp, ?_⟩
  rintro ⟨f, f'⟩ hp
  rw [ha, ← List.map_id m.allFields, List.map_map] at hp
  rw [List.zip_map'] at hp
  obtain ⟨g0, hg0, e⟩ := List.mem_map.mp hp
  simp only [Function.comp, id, Prod.mk.injEq] at e
  obtain ⟨rfl, rfl⟩ := e
  have c := (hv [k] m g g0 hg0).packed
  simp only [List.length_singleton, if_true] at c
  simp only [c, packing]
  refine ⟨fun h => by rw [if_pos h], fun h1 h2 h3 h4 => ?_, fun h1 h2 => ?_⟩
  · rw [if_neg (by simp [h1]), if_pos ⟨h2, h3, h4⟩]
  · rw [if_neg (by simp [h1]), if_neg]
    rintro ⟨h3, h4, h5⟩
    rcases h2 with h2 | h2 | h2
    · rw [h2] at h3; cases h3
    · exact h2 h4
    · rw [h2] at h5; cases h5

/-- In a nested message the packing is whatever the option says: nothing is made explicit, nothing dropped. -/
theorem C60_nested_partial {path : FileDescriptor → FieldType → Str} {cfg : Config} {D D' : FileDescriptor}
    (h : D.compile path cfg = .ok D') {i : MessageIndex} (hi : 1 < i.length) {m m' : Message} (hm : D.getMessage i = some m)
    (hm' : D'.getMessage i = some m') : m'.allFields.map (·.packed) = m.allFields.map (·.packed) := by
  obtain ⟨H, v, hv⟩ := compile_via h
  obtain ⟨m1, h1, _, _, ha⟩ := v.message hm'
  rw [hm] at h1; cases h1
  rw [ha, List.map_map]
  refine List.map_congr_left fun f hf => ?_
  have c := (hv i m hm f hf).packed
  rw [if_neg (by omega)] at c
  exact c

/-! ## C64: `dont_use_cow` -/

/-- With `dont_use_cow`, no field of the compiled schema, in nested messages, oneofs and maps too, has a `Cow` type. -/
theorem C64_no_cow {path : FileDescriptor → FieldType → Str} {cfg : Config} {D D' : FileDescriptor} (hP : Parsed D)
    (hc : cfg.dontUseCow = true) (h : D.compile path cfg = .ok D') :
    ∀ i m, D'.getMessage i = some m → ∀ f ∈ m.allFields, ¬ CowType f.typ := by
  obtain ⟨H, v, hv⟩ := compile_via h
  intro i m' hm' f' hf'
  obtain ⟨m, hm, _, _, ha⟩ := v.message hm'
  rw [ha] at hf'
  obtain ⟨f, hf, rfl⟩ := List.mem_map.mp hf'
  obtain ⟨t, ht, e⟩ := (hv i m hm f hf).typ
  rw [hc] at e
  simp only [if_true] at e
  rw [e]
  have one : ∀ t : FieldType, t.isMap = false → ¬ CowType t.ownedOne := by
    intro t ht hc
    cases t with
    | map _ _ => cases ht
    | _ => cases hc
  have raw1 : ∀ t t', ResolvesOne D m t t' → t.rawOne = true → t'.isMap = false := by
    intro t t' h1 h2
    rcases resolvesOne_cases h1 h2 with ⟨j, rfl, _⟩ | ⟨e, rfl, _⟩ | ⟨rfl, _⟩
    · rfl
    · rfl
    · cases t' with
      | map _ _ => cases h2
      | _ => rfl
  have hr := hP.raw i m hm f hf
  by_cases hmap : f.typ.isMap = false
  · have hraw : f.typ.rawOne = true := by
      cases hty : f.typ with
      | map _ _ => rw [hty] at hmap; cases hmap
      | _ => rw [hty] at hr; exact hr
    have hm1 := raw1 _ _ (resolvesTo_one hmap ht) hraw
    have : t.owned = t.ownedOne := by
      cases t with
      | map _ _ => cases hm1
      | _ => rfl
    rw [this]
    exact one t hm1
  · cases hty : f.typ with
    | map k w =>
      rw [hty] at ht hr
      obtain ⟨k', w', rfl, hk, hw⟩ := ht
      simp only [FieldType.raw, Bool.and_eq_true] at hr
      intro hcow
      cases hcow with
      | key _ hcow => exact one k' (raw1 _ _ hk hr.1) hcow
      | value _ hcow => exact one w' (raw1 _ _ hw hr.2) hcow
    | _ => rw [hty] at hmap; exact absurd rfl hmap

/-- …and without `dont_use_cow` the types are exactly what the names mean. -/
theorem C64_otherwise {path : FileDescriptor → FieldType → Str} {cfg : Config} {D D' : FileDescriptor}
    (hc : cfg.dontUseCow = false) (h : D.compile path cfg = .ok D') {i : MessageIndex} {m m' : Message}
    (hm : D.getMessage i = some m) (hm' : D'.getMessage i = some m') :
    m'.allFields.length = m.allFields.length ∧ ∀ p ∈ m.allFields.zip m'.allFields, ResolvesTo D m p.1.typ p.2.typ := by
  obtain ⟨H, v, hv⟩ := compile_via h
  obtain ⟨m1, h1, _, _, ha⟩ := v.message hm'
  rw [hm] at h1; cases h1
  refine ⟨by rw [ha]; simp, ?_⟩
  rintro ⟨f, f'⟩ hp
  rw [ha, ← List.map_id m.allFields, List.map_map] at hp
  rw [List.zip_map'] at hp
  obtain ⟨g0, hg0, e⟩ := List.mem_map.mp hp
  simp only [Function.comp, id, Prod.mk.injEq] at e
  obtain ⟨rfl, rfl⟩ := e
  obtain ⟨t, ht, e⟩ := (hv i m hm g0 hg0).typ
  rw [hc] at e
  simp only [Bool.false_eq_true, if_false] at e
  rw [e]; exact ht

/-! ## C67: which schemas compile -/

/-- A `bool` field has a default that is neither `true` nor `false`. -/
def BadBoolDefault (f : Field) : Prop :=
  f.typ = .bool ∧ ∃ d, f.default = some d ∧ d ≠ "true".toList ∧ d ≠ "false".toList

theorem mapM?_isSome {α β : Type} {g : α → Option β} {l : List α} (h : ∀ a ∈ l, (g a).isSome) : (mapM? g l).isSome := by
  induction l with
  | nil => rfl
  | cons a l ih =>
    obtain ⟨b, hb⟩ := Option.isSome_iff_exists.mp (h a List.mem_cons_self)
    obtain ⟨bs, hbs⟩ := Option.isSome_iff_exists.mp (ih fun a ha => h a (List.mem_cons_of_mem _ ha))
    simp [mapM?, hb, hbs]

theorem mapM?_all {α β : Type} {g : α → Option β} {l : List α} (h : (mapM? g l).isSome) : ∀ a ∈ l, (g a).isSome := by
  obtain ⟨bs, hbs⟩ := Option.isSome_iff_exists.mp h
  intro a ha
  have := mapM?_some hbs
  have ha : g a ∈ bs.map some := by rw [← this]; exact List.mem_map_of_mem ha
  obtain ⟨b, _, hb⟩ := List.mem_map.mp ha
  rw [← hb]; rfl

theorem descend_cons {m x : Message} {j : Nat} {js : List Nat} : m.descend (j :: js) = some x ↔
    ∃ y, m.messages[j]? = some y ∧ y.descend js = some x := by
  simp only [Message.descend, Option.bind_eq_some_iff]

mutual
theorem sanitizeDefaults_isSome (path : FieldType → Str) : ∀ m : Message,
    (∀ (js : List Nat) x, m.descend js = some x → ∀ f ∈ x.allFields, (f.sanitizeDefault path).isSome) →
    (m.sanitizeDefaults path).isSome
  | ⟨name, fields, oneofs, nums, names, imported, pkg, messages, enums, module, index⟩, h => by
    have h0 := h [] _ rfl
    obtain ⟨a, ha⟩ := Option.isSome_iff_exists.mp
      (mapM?_isSome (g := Field.sanitizeDefault path) fun f hf => h0 f (List.mem_append_left _ hf))
    obtain ⟨b, hb⟩ := Option.isSome_iff_exists.mp
      (mapM?_isSome (g := OneOf.sanitizeDefaults path) (l := oneofs) fun o ho => by
        obtain ⟨c, hc⟩ := Option.isSome_iff_exists.mp (mapM?_isSome (g := Field.sanitizeDefault path) (l := o.fields)
          fun f hf => h0 f (List.mem_append_right _ (List.mem_flatMap.mpr ⟨o, ho, hf⟩)))
        simp [OneOf.sanitizeDefaults, hc])
    obtain ⟨c, hc⟩ := Option.isSome_iff_exists.mp (sanitizeDefaultsAll_isSome path messages
      (fun j js x hx => h (j :: js) x (descend_cons.mpr (by
        simpa [Option.bind_eq_some_iff] using hx))))
    simp only at ha
    simp [Message.sanitizeDefaults, ha, hb, hc]
theorem sanitizeDefaultsAll_isSome (path : FieldType → Str) : ∀ ms : List Message,
    (∀ (j : Nat) (js : List Nat) x, (ms[j]?.bind fun m => m.descend js) = some x → ∀ f ∈ x.allFields,
      (f.sanitizeDefault path).isSome) → (Message.sanitizeDefaultsAll path ms).isSome
  | [], _ => rfl
  | m :: ms, h => by
    obtain ⟨a, ha⟩ := Option.isSome_iff_exists.mp (sanitizeDefaults_isSome path m (fun js x hx => h 0 js x (by simpa using hx)))
    obtain ⟨b, hb⟩ := Option.isSome_iff_exists.mp (sanitizeDefaultsAll_isSome path ms
      (fun j js x hx => h (j + 1) js x (by simpa using hx)))
    simp [Message.sanitizeDefaultsAll, ha, hb]
end

theorem three_ne {α : Type} (a b c : Prop) [Decidable a] [Decidable b] [Decidable c] (x y z w : α) :
    ((if a then some x else if b then some y else if c then some z else some w) = none) = False := by
  split
  · simp
  · split
    · simp
    · split <;> simp

theorem sanitizeDefault_none {path : FieldType → Str} {f : Field} (hn : f.typ.noNames) :
    f.sanitizeDefault path = none ↔ BadBoolDefault f := by
  unfold Field.sanitizeDefault BadBoolDefault
  cases f.default with
  | none => simp
  | some d =>
    simp only [Option.map_eq_none_iff]
    cases hty : f.typ with
    | messageOrEnum n => rw [hty] at hn; exact hn.elim
    | bool =>
      simp only [sanitizeText]
      split
      · simp_all
      · split <;> simp_all
    | float => simp only [sanitizeText, three_ne, reduceCtorEq, false_and]
    | double => simp only [sanitizeText, three_ne, reduceCtorEq, false_and]
    | _ => simp [sanitizeText]

theorem setDefaults_isSome {path : FieldType → Str} {D : FileDescriptor}
    (h : ∀ i m, D.getMessage i = some m → ∀ f ∈ m.allFields, f.typ.noNames ∧ ¬ BadBoolDefault f) :
    (D.setDefaults path).isSome := by
  unfold FileDescriptor.setDefaults
  simp only
  generalize hms : (if D.syntax_ = .proto3 then D.messages.map (Message.mapAllFields Field.repeatedAsPacked) else D.messages) = ms
  have key : ∀ i m, FileDescriptor.getMessage { D with messages := ms } i = some m → ∀ f ∈ m.allFields,
      f.typ.noNames ∧ ¬ BadBoolDefault f := by
    subst hms
    split
    · have v := top_via Field.repeatedAsPacked D
      intro i m' hm' f' hf'
      obtain ⟨m, hm, _, _, ha⟩ := v.message hm'
      rw [ha] at hf'
      obtain ⟨f, hf, rfl⟩ := List.mem_map.mp hf'
      have := h i m hm f hf
      split
      · unfold Field.repeatedAsPacked
        split
        · exact this
        · exact this
      · exact this
    · exact h
  obtain ⟨a, ha⟩ := Option.isSome_iff_exists.mp (sanitizeDefaultsAll_isSome path ms (fun j js x hx f hf => by
    have := key (j :: js) x hx f hf
    rw [Option.isSome_iff_ne_none]
    exact fun hn => this.2 ((sanitizeDefault_none this.1).mp hn)))
  rw [ha]; rfl

theorem enum_exists {D : FileDescriptor} (hP : Parsed D) {i : MessageIndex} {m : Message} (hg : D.getMessage i = some m)
    {f : Field} (hf : f ∈ m.allFields) {e : EnumIndex} (e4 : ResolvesTo D m f.typ (.enum e)) : (D.getEnum e).isSome := by
  have hraw := hP.raw _ _ hg f hf
  cases hty : f.typ with
  | messageOrEnum n =>
    rw [hty] at e4
    rcases Means.target e4 with ⟨_, h, _⟩ | ⟨_, h, h'⟩ <;> cases h
    exact h'
  | map k w =>
    rw [hty] at e4
    obtain ⟨_, _, h, _⟩ := e4
    cases h
  | enum _ => rw [hty] at hraw; cases hraw
  | _ => rw [hty] at e4; cases e4

theorem types2 {D D2 : FileDescriptor} {H : MessageIndex → Field → Field} (hP : Parsed D) (v : Via D D2 H)
    (hv : ∀ i m, D.getMessage i = some m → ∀ f ∈ m.allFields, (H i f).name = f.name ∧ (H i f).number = f.number ∧
      (H i f).default = f.default ∧ ResolvesTo D m f.typ (H i f).typ)
    (hb : ∀ i m, D.getMessage i = some m → ∀ f ∈ m.allFields, ¬ BadBoolDefault f) :
    ∀ i m2, D2.getMessage i = some m2 → ∀ f ∈ m2.allFields, f.typ.noNames ∧ ¬ BadBoolDefault f := by
  intro i m2 hm2 f2 hf2
  obtain ⟨m, hm, _, _, ha⟩ := v.message hm2
  rw [ha] at hf2
  obtain ⟨f, hf, rfl⟩ := List.mem_map.mp hf2
  obtain ⟨_, _, e3, e4⟩ := hv i m hm f hf
  refine ⟨(resolved_ok e4 (hP.raw i m hm f hf)).2, ?_⟩
  rintro ⟨hb1, d, hb2, hb3⟩
  refine hb i m hm f hf ⟨?_, d, by rw [← e3, hb2], hb3⟩
  rw [hb1] at e4
  cases hty : f.typ with
  | messageOrEnum n =>
    rw [hty] at e4
    rcases Means.target e4 with ⟨_, h, _⟩ | ⟨_, h, _⟩ <;> cases h
  | map k w =>
    rw [hty] at e4
    obtain ⟨_, _, h, _⟩ := e4
    cases h
  | bool => rfl
  | _ => rw [hty] at e4; exact e4.symm

theorem types3 {D D2 : FileDescriptor} {H : MessageIndex → Field → Field} (hP : Parsed D) (cfg : Config) (v : Via D D2 H)
    (hv : ∀ i m, D.getMessage i = some m → ∀ f ∈ m.allFields, (H i f).name = f.name ∧ (H i f).number = f.number ∧
      (H i f).default = f.default ∧ ResolvesTo D m f.typ (H i f).typ)
    (hb : ∀ i m, D.getMessage i = some m → ∀ f ∈ m.allFields, ¬ BadBoolDefault f) :
    ∀ i m3, FileDescriptor.getMessage (if cfg.dontUseCow then
        (D2.convertFieldTypes .stringCow .string_).convertFieldTypes .bytesCow .bytes_ else D2) i = some m3 →
      ∀ f ∈ m3.allFields, f.typ.noNames ∧ ¬ BadBoolDefault f := by
  have types := types2 hP v hv hb
  have v3 := convert_stage cfg D2
  intro i m3 hm3 f3 hf3
  obtain ⟨m2, hm2, _, _, ha⟩ := v3.message hm3
  rw [ha] at hf3
  obtain ⟨f, hf, rfl⟩ := List.mem_map.mp hf3
  obtain ⟨t1, t2⟩ := types i m2 hm2 f hf
  constructor
  · show FieldType.noNames (if cfg.dontUseCow then f.typ.owned else f.typ)
    split
    · exact (owned_ok (P := fun _ => True) ⟨fun _ _ => trivial, t1⟩).2
    · exact t1
  · rintro ⟨h5, h6⟩
    refine t2 ⟨?_, h6⟩
    simp only at h5
    split at h5
    · cases hty : f.typ <;> rw [hty] at h5 <;> first | rfl | cases h5
    · exact h5

/-- Every schema that has a message or an enum, uses declared names only, and has no reserved field or bad default in its
messages, compiles (if cycles are not treated as errors). -/
theorem C67_accepts {path : FileDescriptor → FieldType → Str} {cfg : Config} {D : FileDescriptor} (hP : Parsed D)
    (hne : D.messages ≠ [] ∨ D.enums ≠ []) (hc : cfg.errorCycle = false)
    (hu : ∀ i m, D.getMessage i = some m → ∀ f ∈ m.allFields, ∀ n, f.typ.uses n → ¬ Undeclared D m n)
    (hr : ∀ m ∈ D.messages, ∀ f ∈ m.allFields, ¬ ReservedIn m f)
    (hd : ∀ m ∈ D.messages, ∀ f ∈ m.allFields, ¬ BadEnumDefault D m f)
    (hb : ∀ i m, D.getMessage i = some m → ∀ f ∈ m.allFields, ¬ BadBoolDefault f) :
    ∃ D', D.compile path cfg = .ok D' := by
  unfold FileDescriptor.compile
  rw [if_neg (by
    rcases hne with h | h
    · cases hm : D.messages with
      | nil => exact absurd hm h
      | cons _ _ => simp
    · cases hm : D.enums with
      | nil => exact absurd hm h
      | cons _ _ => simp)]
  cases h1 : D.resolveTypes with
  | error n =>
    obtain ⟨i, m, f, hm, hf, h2, h3⟩ := C52_error h1
    exact absurd h3 (hu i m hm f hf n h2)
  | ok D1 =>
    simp only
    have hI := C52_positions h1
    obtain ⟨D2, _, h2, _⟩ := C49_finite_size D1 hI
    rw [hc, h2]
    simp only
    obtain ⟨⟨H, v, hv⟩, hk, hE⟩ := before_checks h1 h2
    have h3 : D2.sanityChecks = .ok () := by
      refine checkAll_ok.mpr fun m2 hm2 => checkAll_ok.mpr fun f2 hf2 => ?_
      obtain ⟨k, hg2⟩ := mem_messages hm2
      obtain ⟨m, hg, _, _, ha⟩ := v.message hg2
      obtain ⟨m', hm', kept⟩ := hk _ _ hg2
      rw [hg] at hm'; cases hm'
      rw [ha] at hf2
      obtain ⟨f, hf, rfl⟩ := List.mem_map.mp hf2
      obtain ⟨e1, e2, e3, e4⟩ := hv _ _ hg f hf
      rcases sanityCheck_cases D2 m2 (H [k] f) with ⟨h4, _⟩ | ⟨_, ⟨e, d, h5, h6, h7⟩ | ⟨_, h5⟩⟩
      · exact absurd ((reserved_kept kept e1 e2).mp h4) (hr m (of_getMessage hg) f hf)
      · have hex : (D2.getEnum e).isSome := by
          have hx : (D.getEnum e).isSome := enum_exists hP hg hf (by rw [← h5]; exact e4)
          have := congrArg Option.isSome (hE e)
          simp only [FileDescriptor.enumValues, Option.isSome_map] at this
          rw [this]; exact hx
        rcases h7 with ⟨h7, _⟩ | ⟨en, h7, ⟨h8, _⟩ | ⟨_, h8⟩⟩
        · rw [h7] at hex; cases hex
        · obtain ⟨en', h9, h10⟩ := badDefault_kept hE h7
          exact absurd ⟨e, en', d, by rw [← h5]; exact e4, h9, by rw [← e3]; exact h6, by rw [h10]; exact h8⟩
            (hd m (of_getMessage hg) f hf)
        · exact h8
      · exact h5
    rw [h3]
    simp only
    obtain ⟨D4, h4⟩ := Option.isSome_iff_exists.mp (setDefaults_isSome (path := path (if cfg.dontUseCow then
      (D2.convertFieldTypes .stringCow .string_).convertFieldTypes .bytesCow .bytes_ else D2)) (types3 hP cfg v hv hb))
    rw [h4]
    exact ⟨_, rfl⟩

/-- pb-rs panics, after parsing, only on a `bool` field with a default that is neither `true` nor `false`. -/
theorem C67_panic_reason {path : FileDescriptor → FieldType → Str} {cfg : Config} {D : FileDescriptor} (hP : Parsed D)
    (h : D.compile path cfg = .error .panic) : ∃ i m f, D.getMessage i = some m ∧ f ∈ m.allFields ∧ BadBoolDefault f := by
  apply Classical.byContradiction
  intro hno
  have hb : ∀ i m, D.getMessage i = some m → ∀ f ∈ m.allFields, ¬ BadBoolDefault f :=
    fun i m hm f hf hb => hno ⟨i, m, f, hm, hf, hb⟩
  unfold FileDescriptor.compile at h
  split at h
  · cases h
  · split at h
    · cases h
    · rename_i D1 h1
      have hI := C52_positions h1
      split at h
      · rename_i h2
        obtain ⟨cs, hs, _⟩ := C48_strongly_connected D1 hI
        simp only [FileDescriptor.breakCycles, hs, Option.map_some] at h2
        cases h2
      · cases h
      · rename_i D2 h2
        obtain ⟨⟨H, v, hv⟩, hk, hE⟩ := before_checks h1 h2
        split at h
        · rename_i e h3
          cases h
          obtain ⟨m2, hm2, h4⟩ := checkAll_error h3
          obtain ⟨f2, hf2, h5⟩ := checkAll_error h4
          obtain ⟨k, hg2⟩ := mem_messages hm2
          obtain ⟨m, hg, _, _, ha⟩ := v.message hg2
          rw [ha] at hf2
          obtain ⟨f, hf, rfl⟩ := List.mem_map.mp hf2
          obtain ⟨_, _, _, e4⟩ := hv _ _ hg f hf
          rcases sanityCheck_cases D2 m2 (H [k] f) with ⟨_, h6⟩ | ⟨_, ⟨e, d, h7, _, ⟨h8, _⟩ | ⟨en, _, ⟨_, h6⟩ | ⟨_, h6⟩⟩⟩ | ⟨_, h6⟩⟩
          · rw [h6] at h5; cases h5
          · have hx := enum_exists hP hg hf (by rw [← h7]; exact e4)
            have := congrArg Option.isSome (hE e)
            simp only [FileDescriptor.enumValues, Option.isSome_map] at this
            rw [h8, hx] at this
            cases this
          · rw [h6] at h5; cases h5
          · rw [h6] at h5; cases h5
          · rw [h6] at h5; cases h5
        · simp only at h
          split at h
          · rename_i h4
            have := setDefaults_isSome (path := path (if cfg.dontUseCow then
              (D2.convertFieldTypes .stringCow .string_).convertFieldTypes .bytesCow .bytes_ else D2))
              (types3 hP cfg v hv hb)
            rw [h4] at this
            cases this
          · cases h

/-! ## C65: what is generated from a compiled schema is covered by the theorems about generated code -/

/-- A compiled schema has positions, no dangling references, structs of finite size; boxed fields are optional messages; the
numbers of fields and enums are those of the file. -/
theorem C65_compiled {path : FileDescriptor → FieldType → Str} {cfg : Config} {D D' : FileDescriptor} (hP : Parsed D)
    (h : D.compile path cfg = .ok D') : IndexOk D' ∧ RefsOk D' ∧ AllSized D' ∧ BoxedSane D' ∧ D'.syntax_ = D.syntax_ ∧
      (∀ i, (D'.getMessage i).map (fun m => m.allFields.map (·.number)) =
        (D.getMessage i).map (fun m => m.allFields.map (·.number))) ∧
      (∀ e, (D'.getEnum e).map (·.fields.map (·.2)) = (D.getEnum e).map (·.fields.map (·.2))) := by
  refine ⟨compile_indexOk h, compile_refsOk hP h, compile_allSized h, (compile_boxedSane hP h).1, compile_syntax h, ?_,
    compile_enums h⟩
  obtain ⟨H, v, hv⟩ := compile_via h
  intro i
  cases hm : D.getMessage i with
  | none =>
    have := v.isSome i
    rw [hm] at this
    cases hm' : D'.getMessage i with
    | none => rfl
    | some m' => rw [hm'] at this; cases this
  | some m =>
    obtain ⟨m', hm', _, _, ha⟩ := v.message_fwd hm
    rw [hm']
    simp only [Option.map_some, Option.some.injEq, ha, List.map_map]
    exact List.map_congr_left fun f hf => (hv i m hm f hf).number

namespace CompileExample

/-- `syntax = "proto3"; message M { reserved 9; repeated int32 a = 1; repeated string s = 2 [packed = true]; N n = 3;
oneof o { bool b = 4 [default = true]; } message N { M back = 1; repeated int32 c = 2; map<string, E> e = 3; } }
enum E { X = 0; Y = 5; }` -/
def file : FileDescriptor where
  syntax_ := .proto3
  messages := [
    { name := "M".toList
      reservedNums := some [9]
      fields := [
        { name := "a".toList, frequency := .p3repeated, typ := .int32, number := 1 },
        { name := "s".toList, frequency := .p3repeated, typ := .stringCow, number := 2, packed := some true },
        { name := "n".toList, frequency := .p3default, typ := .messageOrEnum "N".toList, number := 3 }]
      oneofs := [{ name := "o".toList, fields := [
        { name := "b".toList, frequency := .p3optional, typ := .bool, number := 4, default := some "true".toList }] }]
      messages := [
        { name := "N".toList
          fields := [
            { name := "back".toList, frequency := .p3default, typ := .messageOrEnum "M".toList, number := 1 },
            { name := "c".toList, frequency := .p3repeated, typ := .int32, number := 2 },
            { name := "e".toList, frequency := .p3map, typ := .map .stringCow (.messageOrEnum "E".toList), number := 3 }] }] }]
  enums := [{ name := "E".toList, fields := [("X".toList, 0), ("Y".toList, 5)] }]

/-- A path for enums (the text does not matter here). -/
def path : FileDescriptor → FieldType → Str := fun _ _ => "E".toList

/-- What the theorems speak of, of one message. -/
def view (m : Message) : List (Int × FieldType × Option Bool × Bool) := m.allFields.map fun f => (f.number, f.typ, f.packed, f.boxed)

def result (cfg : Config) (D : FileDescriptor) : Except CompileError FileDescriptor := D.setPackages.compile path cfg

/-- What the theorems speak of, of a compiled schema. -/
def views (r : Except CompileError FileDescriptor) : List (List Nat × List (Int × FieldType × Option Bool × Bool)) :=
  match r with
    | .ok D => (Message.preorderAll [] 0 D.messages).map (fun p => (p.1, view p.2))
    | .error _ => []

/-- The result of compiling: the cycle `M`, `N` is broken by boxes, `a` is packed, `s` is not, `c` (in a nested message) has
no packing. -/
example : views (result {} file) =
    [([0], [(1, .int32, some true, false), (2, .stringCow, none, false), (3, .message [0, 0], none, true), (4, .bool, none, false)]),
     ([0, 0], [(1, .message [0], none, true), (2, .int32, none, false), (3, .map .stringCow (.enum ⟨[], 0⟩), none, false)])] := by
  rfl

/-- With `dont_use_cow`. -/
example : (match result { dontUseCow := true } file with
    | .ok D => (Message.preorderAll [] 0 D.messages).map (fun p => p.2.allFields.map (·.typ))
    | .error _ => []) =
    [[.int32, .string_, .message [0, 0], .bool], [.message [0], .int32, .map .string_ (.enum ⟨[], 0⟩)]] := by
  decide +kernel

theorem all_messages {D : FileDescriptor} {P : MessageIndex → Message → Prop}
    (h : ∀ p ∈ Message.preorderAll [] 0 D.messages, P p.1 p.2) : ∀ i m, D.getMessage i = some m → P i m :=
  fun i m hm => h (i, m) ((mem_preorder_file D i m).mpr hm)

theorem file_parsed : Parsed file.setPackages :=
  ⟨all_messages (P := fun _ m => ∀ f ∈ m.allFields, f.typ.raw = true) (by decide +kernel),
   all_messages (P := fun _ m => ∀ f ∈ m.allFields, f.boxed = false) (by decide +kernel),
   all_messages (P := fun _ m => ∀ f ∈ m.fields, f.frequency.isMap = f.typ.isMap) (by decide +kernel)⟩

theorem file_numbered : Numbered file.setPackages :=
  ⟨all_messages (P := fun _ m => ∀ f ∈ m.allFields, 0 < f.number ∧ f.number < 2 ^ 29) (by decide +kernel),
   all_messages (P := fun _ m => (m.allFields.map (·.number)).Nodup) (by decide +kernel)⟩

theorem file_packed : NestedPackedOk file.setPackages := by
  intro i m hi hm f hf hp
  have : ∀ i m, file.setPackages.getMessage i = some m → (1 < i.length → ∀ f ∈ m.allFields, f.packed ≠ some true) :=
    all_messages (P := fun i m => 1 < i.length → ∀ f ∈ m.allFields, f.packed ≠ some true) (by decide +kernel)
  exact absurd hp (this i m hm hi f hf)

/-- The hypotheses of C65 are met by `file`, which compiles. -/
example : ∃ D', file.setPackages.compile path {} = .ok D' := by
  cases h : file.setPackages.compile path {} with
  | ok D' => exact ⟨D', rfl⟩
  | error e =>
    have : (match result {} file with | .ok _ => true | .error _ => false) = true := by decide +kernel
    unfold result at this
    rw [h] at this
    cases this

/-- A schema with one message, nested in another. -/
def nested (m : Message) (enums : List Enumerator := []) : FileDescriptor where
  syntax_ := .proto3
  messages := [{ name := "Outer".toList, fields := [], messages := [m] }]
  enums := enums

/-- `message Inner { reserved 1; reserved "x"; int32 x = 1; }` -/
def reserved : Message where
  name := "Inner".toList
  reservedNums := some [1]
  reservedNames := some ["x".toList]
  fields := [{ name := "x".toList, frequency := .p3default, typ := .int32, number := 1 }]

/-- `message Inner { repeated int32 x = 1; repeated string y = 2 [packed = true]; }` -/
def unpacked : Message where
  name := "Inner".toList
  fields := [{ name := "x".toList, frequency := .p3repeated, typ := .int32, number := 1 },
    { name := "y".toList, frequency := .p3repeated, typ := .stringCow, number := 2, packed := some true }]

/-- `message Inner { optional E x = 1 [default = NONE]; }` -/
def badDefault : Message where
  name := "Inner".toList
  fields := [{ name := "x".toList, frequency := .p2optional, typ := .messageOrEnum "E".toList, number := 1,
               default := some "NONE".toList }]

/-- `message M { optional bool x = 1 [default = 1]; }` -/
def badBool : Message where
  name := "M".toList
  fields := [{ name := "x".toList, frequency := .p2optional, typ := .bool, number := 1, default := some "1".toList }]

theorem compiles {cfg : Config} {D : FileDescriptor} (p : FileDescriptor → Bool)
    (h : (match D.compile path cfg with | .ok D' => p D' | .error _ => false) = true) :
    ∃ D', D.compile path cfg = .ok D' ∧ p D' = true := by
  cases hc : D.compile path cfg with
  | ok D' => rw [hc] at h; exact ⟨D', rfl, h⟩
  | error e => rw [hc] at h; cases h

end CompileExample

open CompileExample in
/-- C53 is false for nested messages: a nested message whose field has a reserved number and a reserved name compiles. -/
theorem C53_refuted_nested : ∃ D D' : FileDescriptor, D.compile path {} = .ok D' ∧
    ∃ i m f, D.getMessage i = some m ∧ f ∈ m.allFields ∧ ReservedIn m f := by
  obtain ⟨D', h, _⟩ := compiles (cfg := {}) (D := (nested reserved).setPackages) (fun _ => true) (by decide +kernel)
  refine ⟨_, D', h, [0, 0], Message.setPackage "Outer".toList ".mod_Outer".toList reserved, _, rfl, List.mem_cons_self, ?_⟩
  exact Or.inr ⟨[1], rfl, by decide⟩

open CompileExample in
/-- C60 is false for nested messages: there a repeated scalar of a proto3 file is not packed, and a repeated string can be. -/
theorem C60_refuted_nested : ∃ D D' : FileDescriptor, D.syntax_ = .proto3 ∧ D.compile path {} = .ok D' ∧
    ∃ m', D'.getMessage [0, 0] = some m' ∧ m'.fields.map (fun f => (f.frequency.isRepeated, f.typ, f.packed)) =
      [(true, .int32, none), (true, .stringCow, some true)] := by
  obtain ⟨D', h, h2⟩ := compiles (cfg := {}) (D := (nested unpacked).setPackages) (fun D' =>
    match D'.getMessage [0, 0] with
    | none => false
    | some m' => m'.fields.map (fun f => (f.frequency.isRepeated, f.typ, f.packed)) =
      [(true, .int32, none), (true, .stringCow, some true)]) (by decide +kernel)
  refine ⟨_, D', rfl, h, ?_⟩
  cases hm : D'.getMessage [0, 0] with
  | none => rw [hm] at h2; cases h2
  | some m' =>
    rw [hm] at h2
    exact ⟨m', rfl, by simpa using h2⟩

open CompileExample in
/-- C66 is false for nested messages. -/
theorem C66_refuted_nested : ∃ D D' : FileDescriptor, D.compile path {} = .ok D' ∧
    ∃ i m f e en, D.getMessage i = some m ∧ f ∈ m.allFields ∧ f.typ = .messageOrEnum "E".toList ∧
      D.fullNames.find "E".toList = some (.enum e) ∧ D.getEnum e = some en ∧ f.default = some "NONE".toList ∧
      "NONE".toList ∉ en.fields.map (·.1) := by
  obtain ⟨D', h, _⟩ := compiles (cfg := {})
    (D := (nested badDefault [{ name := "E".toList, fields := [("A".toList, 0)] }]).setPackages) (fun _ => true) (by decide +kernel)
  exact ⟨_, D', h, [0, 0], Message.setPackage "Outer".toList ".mod_Outer".toList badDefault, _, ⟨[], 0⟩, _, rfl,
    List.mem_cons_self, rfl, rfl, rfl, rfl, by decide⟩

open CompileExample in
/-- pb-rs panics on the schema `message M { optional bool x = 1 [default = 1]; }`. -/
theorem C67_refuted_panic : ∃ D : FileDescriptor, Parsed D ∧ D.compile path {} = .error .panic := by
  refine ⟨{ messages := [badBool] }, ⟨?_, ?_, ?_⟩, rfl⟩
  · exact all_messages (P := fun _ m => ∀ f ∈ m.allFields, f.typ.raw = true) (by decide +kernel)
  · exact all_messages (P := fun _ m => ∀ f ∈ m.allFields, f.boxed = false) (by decide +kernel)
  · exact all_messages (P := fun _ m => ∀ f ∈ m.fields, f.frequency.isMap = f.typ.isMap) (by decide +kernel)

end QP.Pbrs

namespace QP.Gen
open QP.Pbrs Spec

/-- The code generated from a compiled schema meets the conditions of the theorems about generated code. -/
theorem C65_schema_ok {path : FileDescriptor → FieldType → Str} {D : FileDescriptor} {C : Ctx} (hP : Parsed D)
    (hN : Numbered D) (hK : NestedPackedOk D) (h : D.compile path C.cfg = .ok C.D) : SchemaOk C := by
  obtain ⟨H, v, hv⟩ := compile_via h
  have hB := (compile_boxedSane hP h).2
  intro i m' hm'
  obtain ⟨m, hm, hf, ho, ha⟩ := v.message hm'
  have num : ∀ f ∈ m'.allFields, 0 < f.number ∧ f.number < 2 ^ 29 := by
    intro f hf
    rw [ha] at hf
    obtain ⟨g, hg, rfl⟩ := List.mem_map.mp hf
    rw [(hv i m hm g hg).number]
    exact hN.range i m hm g hg
  constructor
  · intro mem hmem
    rcases List.mem_append.mp hmem with hmem | hmem
    · obtain ⟨f', hf', rfl⟩ := List.mem_map.mp hmem
      have hf1 := (List.mem_filter.mp hf').1
      have hfa : f' ∈ m'.allFields := List.mem_append_left _ hf1
      have hb := hB i m' hm' f' hfa
      have hn := num f' hfa
      rw [hf] at hf1
      obtain ⟨f, hff, rfl⟩ := List.mem_map.mp hf1
      have hfm : f ∈ m.allFields := List.mem_append_left _ hff
      have c := hv i m hm f hfm
      have hr := hP.raw i m hm f hfm
      have hmp := hP.map i m hm f hff
      obtain ⟨t, ht, e⟩ := c.typ
      have hmt : t.isMap = f.typ.isMap := by
        cases hty : f.typ with
        | map k w =>
          rw [hty] at ht
          obtain ⟨_, _, rfl, _⟩ := ht
          rfl
        | _ =>
          rw [hty] at ht hr
          rcases resolvesOne_cases (resolvesTo_one rfl ht) hr with ⟨j, rfl, _⟩ | ⟨e, rfl, _⟩ | ⟨rfl, _⟩ <;> rfl
      have hmt' : (H i f).typ.isMap = f.typ.isMap := by
        rw [e, ← hmt]
        split
        · cases t <;> rfl
        · rfl
      refine ⟨hn, ?_, ?_, hb⟩
      · rcases c.frequency with h1 | ⟨⟨j, h1⟩, _, _, h2⟩
        · rw [h1, hmt', hmp]
        · rw [h1]
          cases hq : (H i f).frequency <;> rw [hq] at h2 <;> first | rfl | cases h2
      · intro hrep hpk
        have hp := c.packed
        by_cases hi : i.length = 1
        · rw [if_pos hi] at hp
          unfold packing at hp
          cases hpr : (H i f).typ.isPrimitive with
          | true => rfl
          | false =>
            rw [if_pos hpr] at hp
            unfold Field.isPacked at hpk
            rw [hp] at hpk; cases hpk
        · rw [if_neg hi] at hp
          unfold Field.isPacked at hpk
          rw [hp] at hpk
          have hpt : f.packed = Option.some true := by
            cases hpf : f.packed with
            | none => rw [hpf] at hpk; cases hpk
            | some b => rw [hpf] at hpk; simp only [Option.getD_some] at hpk; rw [hpk]
          have hi' : 1 < i.length := by
            cases i with
            | nil => cases hm
            | cons j js =>
              cases js with
              | nil => exact absurd rfl hi
              | cons _ _ => simp
          have hprim := hK i m hi' hm f hfm hpt t ht
          rw [e]
          split
          · cases t <;> first | rfl | cases hprim
          · exact hprim
    · obtain ⟨o', ho', rfl⟩ := List.mem_map.mp hmem
      intro f hf
      exact ⟨num f (List.mem_append_right _ (List.mem_flatMap.mpr ⟨o', ho', (List.mem_filter.mp hf).1⟩))⟩
  · have e1 : (arms C.cfg m').map (·.field.number) = ((arms C.cfg m').map (·.field)).map (·.number) := by
      rw [List.map_map]; rfl
    rw [e1, arms_fields]
    refine List.Nodup.sublist (List.Sublist.map _ List.filter_sublist) ?_
    rw [ha, List.map_map]
    have : m.allFields.map ((fun x => x.number) ∘ H i) = m.allFields.map (·.number) :=
      List.map_congr_left fun f hf => (hv i m hm f hf).number
    rw [this]
    exact hN.distinct i m hm

/-- From the parsed file to the bytes and back: if the schema compiles, then the types generated for it have default values,
and every value of every generated message type survives being written and read. -/
theorem C65_roundtrip {path : FileDescriptor → FieldType → Str} {cfg : Config} {D D' : FileDescriptor} (hP : Parsed D)
    (hN : Numbered D) (hK : NestedPackedOk D) (h : D.compile path cfg = .ok D') (T : Target) (hT : T.bigEndian = false)
    (const : FieldType → Str → RVal) :
    ∃ C : Ctx, C.T = T ∧ C.D = D' ∧ C.cfg = cfg ∧ C.const = const ∧ IsDefault C ∧
      ∀ n idx v, WellTyped C Plain n idx v → (writeImpl C n idx).get_size v < 2 ^ 32 →
        sizeof_len ((writeImpl C n idx).get_size v) < 2 ^ T.usizeBits →
        ∃ bytes, serialize_into_vec (writeImpl C n idx) v = .ok bytes ∧
          ∀ fuel, bytes.length ≤ fuel → ∃ v',
            deserialize_from_slice T (fromReader C fuel idx) bytes = .ok v' ∧ v'.obs = v.obs := by
  obtain ⟨dflt, hd⟩ := C49_defaults_exist ⟨T, D', cfg, fun _ => .none, const⟩ (compile_allSized h)
  refine ⟨⟨T, D', cfg, dflt, const⟩, rfl, rfl, rfl, rfl, hd, ?_⟩
  intro n idx v hv h1 h2
  exact C33_roundtrip ⟨T, D', cfg, dflt, const⟩ hT (C65_schema_ok hP hN hK h) hd n idx v hv h1 h2

end QP.Gen
