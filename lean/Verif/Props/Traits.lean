import Verif.Spec.Traits
import Verif.Props.Generated
import Verif.Proofs.InScope
import Verif.Props.Derives
/-!
# C114: the derived traits
-/

set_option linter.unusedVariables false

namespace QP.Rust
open QP.Pbrs QP.Gen RunExample

section
variable {C : Ctx} {P : Prog} {dflt : Path → RVal}

/-- Keys of the language are hashed and ordered, compared, cloned, printed. -/
theorem key_implements {A : Path → Trait → Prop} {kind : MapKind} {D : FileDescriptor} {cfg : Config} {k : FieldType} {K : Ty} (hk : KeyType k)
    (h : tyOf D cfg k = some K) (tr : Trait) (htr : tr ≠ .copy) : Implements A kind tr K ∧ Bounded A kind K := by
  cases k <;> first | exact hk.elim | (simp only [tyOf, Option.some.injEq] at h; subst h; simp [Implements, Bounded, htr])

/-- The type of a field that is not repeated has all the traits of a struct. -/
theorem type_implements (G : Generates C P dflt) {t : FieldType} : ∀ {T : Ty}, KeysOk t → tyOf C.D C.cfg t = some T →
    (∀ tr ∈ structTraits, Implements (HasTrait P) (mapKind C.cfg) tr T) ∧ Bounded (HasTrait P) (mapKind C.cfg) T := by
  induction t with
  | map k v _ ih =>
    intro T hk h
    simp only [tyOf, Option.bind_eq_some_iff, Option.map_eq_some_iff] at h
    obtain ⟨K, hK, V, hV, rfl⟩ := h
    obtain ⟨h1, h2⟩ := ih hk.2 hV
    have hkey := fun tr h => key_implements (A := HasTrait P) (kind := mapKind C.cfg) hk.1 hK tr h
    refine ⟨fun tr htr => ?_, ?_⟩
    · have h3 := h1 tr htr
      simp only [structTraits, List.mem_cons, List.not_mem_nil, or_false] at htr
      rcases htr with rfl | rfl | rfl | rfl
      · simp only [Implements]; exact ⟨(hkey _ (by decide)).1, h3⟩
      · cases hm : mapKind C.cfg
        · simp only [Implements]; rw [hm] at h3 hkey; exact ⟨⟨(hkey _ (by decide)).1, (hkey _ (by decide)).1⟩, h3⟩
        · simp only [Implements]; rw [hm] at h3 hkey; exact ⟨(hkey _ (by decide)).1, h3⟩
      · simp only [Implements]; exact ⟨(hkey _ (by decide)).1, h3⟩
      · simp only [Implements]
    · cases hm : mapKind C.cfg
      · rw [hm] at h2 hkey; exact ⟨⟨(hkey .eq (by decide)).1, (hkey .hash (by decide)).1⟩, (hkey .eq (by decide)).2, h2⟩
      · rw [hm] at h2 hkey; exact ⟨(hkey .ord (by decide)).1, (hkey .eq (by decide)).2, h2⟩
  | enum e =>
    intro T _ h
    simp only [tyOf, Option.map_eq_some_iff] at h
    obtain ⟨en, he, rfl⟩ := h
    refine ⟨fun tr htr => ?_, trivial⟩
    simp only [Implements]
    refine Or.inr (Or.inr ⟨by rw [G.enums e en he]; rfl, ?_⟩)
    revert htr; revert tr; decide
  | message i =>
    intro T _ h
    simp only [tyOf, Option.bind_eq_some_iff, Option.map_eq_some_iff] at h
    obtain ⟨m, hm, l, _, rfl⟩ := h
    refine ⟨fun tr htr => ?_, trivial⟩
    simp only [Implements]
    obtain ⟨s, _, hs⟩ := G.structs i m hm
    exact Or.inl ⟨by rw [hs]; rfl, htr⟩
  | messageOrEnum s => intro T _ h; cases h
  | _ =>
    intro T _ h
    simp only [tyOf, Option.some.injEq] at h
    subst h
    refine ⟨?_, trivial⟩
    simp [structTraits, Implements]

/-- Numbers of a fixed size are `Copy` and have the traits of a struct. -/
theorem fixed_implements {t : FieldType} {T : Ty} (h : t.isFixedSize = true) (hT : tyOf C.D C.cfg t = some T) :
    Implements (HasTrait P) (mapKind C.cfg) .copy T := by
  cases t <;> first | (simp only [tyOf, Option.some.injEq] at hT; subst hT; simp [Implements]; done) | exact absurd h (by decide) | cases h

theorem field_implements (G : Generates C P dflt) {f : Field} {T : Ty} (hk : KeysOk f.typ) (h : fieldTy C.D C.cfg f = some T) :
    (∀ tr ∈ structTraits, Implements (HasTrait P) (mapKind C.cfg) tr T) ∧ Bounded (HasTrait P) (mapKind C.cfg) T := by
  unfold fieldTy at h
  rw [Option.map_eq_some_iff] at h
  obtain ⟨t, ht, rfl⟩ := h
  obtain ⟨h1, h2⟩ := type_implements G hk ht
  have hc : ∀ tr ∈ structTraits, tr ≠ .copy := by decide
  split
  · refine ⟨fun tr htr => ?_, h2⟩
    simp only [Implements]
    exact Or.inr ⟨hc tr htr, h1 tr htr⟩
  · split
    · split
      · refine ⟨fun tr htr => ?_, h2⟩
        simp only [Implements]
        exact Or.inr (h1 tr htr)
      · exact ⟨h1, h2⟩
    · split
      · rename_i hp
        simp only [Bool.and_eq_true] at hp
        refine ⟨fun tr htr => ?_, fixed_implements hp.1.2 ht, h1 _ (by decide), h2⟩
        simp only [Implements]
        refine ⟨?_, h1 tr htr⟩
        revert htr; revert tr; decide
      · refine ⟨fun tr htr => ?_, h2⟩
        simp only [Implements]
        exact Or.inr ⟨hc tr htr, h1 tr htr⟩
    · exact ⟨h1, h2⟩

/-! ## All structs and oneofs -/

/-- If the keys of all maps are integers, booleans or strings, as the language demands, then the types of all fields of a struct implement
`Debug`, `PartialEq`, `Clone` and `Default`, those of all variants of a oneof `Debug`, `PartialEq` and `Clone`, given that the structs and enums
they name have the traits that they derive: so that every `derive` is accepted. And the bounds on the parts of these types are satisfied. -/
theorem C114_derives_partial (G : Generates C P dflt)
    (hk : ∀ idx m, C.D.getMessage idx = some m → ∀ f ∈ m.allFields, f.visible C.cfg = true → KeysOk f.typ) :
    ∀ idx m, C.D.getMessage idx = some m →
      (∃ s, P.structs (messagePath C.D m) = some s ∧ ∀ x ∈ s.fields,
        (∀ tr ∈ structTraits, Implements (HasTrait P) (mapKind C.cfg) tr x.2) ∧ Bounded (HasTrait P) (mapKind C.cfg) x.2) ∧
      ∀ o ∈ m.oneofs, ∃ vs, P.oneofs (oneofPath C.D o) = some vs ∧ ∀ x ∈ vs,
        (∀ tr ∈ oneofDerives, Implements (HasTrait P) (mapKind C.cfg) tr x.2) ∧ Bounded (HasTrait P) (mapKind C.cfg) x.2 := by
  intro idx m hm
  refine ⟨?_, fun o ho => ?_⟩
  · obtain ⟨s, hs, hP⟩ := G.structs idx m hm
    refine ⟨s, hP, fun x hx => ?_⟩
    unfold structDef at hs
    simp only [Option.bind_eq_some_iff, Option.map_eq_some_iff] at hs
    obtain ⟨fields, hf, _, _, _, _, _, _, _, _, rfl⟩ := hs
    unfold structFields at hf
    simp only [Option.bind_eq_some_iff, Option.map_eq_some_iff] at hf
    obtain ⟨fs, hfs, os, hos, rfl⟩ := hf
    rcases List.mem_append.mp hx with hx | hx
    · obtain ⟨f, hf, h⟩ := mapM_back hfs x hx
      rw [Option.map_eq_some_iff] at h
      obtain ⟨t, ht, rfl⟩ := h
      unfold shownFields at hf
      rw [List.mem_filter] at hf
      exact field_implements G (hk idx m hm f (List.mem_append_left _ hf.1) hf.2) ht
    · obtain ⟨o, ho, h⟩ := mapM_back hos x hx
      rw [Option.map_eq_some_iff] at h
      obtain ⟨l, _, rfl⟩ := h
      obtain ⟨vs, _, hvs, _⟩ := G.oneofs idx m hm o ho
      refine ⟨fun tr htr => ?_, trivial⟩
      simp only [Implements]
      refine Or.inr (Or.inl ⟨by rw [hvs]; rfl, ?_⟩)
      revert htr; revert tr; decide
  · obtain ⟨vs, h1, h2, _⟩ := G.oneofs idx m hm o ho
    refine ⟨vs, h2, fun x hx => ?_⟩
    obtain ⟨f, hf, h⟩ := mapM_back h1 x hx
    rw [Option.map_eq_some_iff] at h
    obtain ⟨t, ht, rfl⟩ := h
    unfold OneOf.shown at hf
    rw [List.mem_filter] at hf
    obtain ⟨g1, g2⟩ := type_implements G (hk idx m hm f (List.mem_append_right _ (List.mem_flatMap.mpr ⟨o, ho, hf.1⟩)) hf.2) ht
    have hsub : ∀ tr ∈ oneofDerives, tr ∈ structTraits ∧ tr ≠ .copy := by decide
    dsimp only
    split
    · refine ⟨fun tr htr => ?_, g2⟩
      simp only [Implements]
      exact ⟨(hsub tr htr).2, g1 tr (hsub tr htr).1⟩
    · exact ⟨fun tr htr => g1 tr (hsub tr htr).1, g2⟩

/-- Key types that the language does not have but pb-rs accepts. -/
def BadKey : FieldType → Prop
  | .float | .double | .enum _ | .message _ => True
  | _ => False

/-- But pb-rs accepts any type as a key. A struct with a map whose keys are floating-point numbers, enums or messages never compiles: its keys cannot
be looked up, and for a `HashMap` already `derive(PartialEq)` is rejected. -/
theorem C114_refuted (G : Generates C P dflt) {idx : MessageIndex} {m : Message} (hm : C.D.getMessage idx = some m) {f : Field}
    (hf : f ∈ m.fields) (hv : f.visible C.cfg = true) {k v : FieldType} (ht : f.typ = .map k v) (hb : f.boxed = false) (hg : f.frequency.generated = .map)
    (hk : BadKey k) :
    ∃ s, P.structs (messagePath C.D m) = some s ∧ ∃ x ∈ s.fields, x.1 = f.name ∧ ¬ Bounded (HasTrait P) (mapKind C.cfg) x.2 ∧
      (mapKind C.cfg = .hash → ¬ Implements (HasTrait P) (mapKind C.cfg) .partialEq x.2) := by
  obtain ⟨s, hs, hP⟩ := G.structs idx m hm
  refine ⟨s, hP, ?_⟩
  unfold structDef at hs
  simp only [Option.bind_eq_some_iff, Option.map_eq_some_iff] at hs
  obtain ⟨fields, hf', _, _, _, _, _, _, _, _, rfl⟩ := hs
  unfold structFields at hf'
  simp only [Option.bind_eq_some_iff, Option.map_eq_some_iff] at hf'
  obtain ⟨fs, hfs, os, hos, rfl⟩ := hf'
  obtain ⟨x, hx, h⟩ := mapM_all hfs f (by unfold shownFields; exact List.mem_filter.mpr ⟨hf, hv⟩)
  rw [Option.map_eq_some_iff] at h
  obtain ⟨t, h, rfl⟩ := h
  refine ⟨_, List.mem_append_left _ hx, rfl, ?_⟩
  unfold fieldTy at h
  rw [Option.map_eq_some_iff] at h
  obtain ⟨t, h, rfl⟩ := h
  rw [ht] at h
  simp only [tyOf, Option.bind_eq_some_iff, Option.map_eq_some_iff] at h
  obtain ⟨K, hK, V, hV, rfl⟩ := h
  have hno : ∀ kind tr, tr = Trait.hash ∨ tr = .ord → ¬ Implements (HasTrait P) kind tr K := by
    intro kind tr htr hi
    have hA : ∀ p, ¬ HasTrait P p tr := by
      intro p hp
      rcases htr with rfl | rfl <;> rcases hp with ⟨_, hp⟩ | ⟨_, hp | hp⟩ | ⟨_, hp⟩ <;> revert hp <;> decide
    cases k <;> first
      | exact hk
      | (simp only [tyOf, Option.some.injEq] at hK; subst hK; rcases htr with rfl | rfl <;> simp [Implements] at hi; done)
      | (simp only [tyOf, Option.map_eq_some_iff, Option.bind_eq_some_iff] at hK
         obtain ⟨_, _, hK⟩ := hK
         first
          | (subst hK; simp only [Implements] at hi; exact hA _ hi)
          | (obtain ⟨_, _, hK⟩ := hK; subst hK; simp only [Implements] at hi; exact hA _ hi))
  simp only [hb, hg]
  refine ⟨fun h => ?_, fun hh h => ?_⟩
  · cases hm : mapKind C.cfg
    · rw [hm] at h; exact hno _ _ (Or.inl rfl) h.1.2
    · rw [hm] at h; exact hno _ _ (Or.inr rfl) h.1
  · rw [hh] at h
    have h : Implements (HasTrait P) .hash .partialEq (.kvmap K V) := h
    unfold Implements at h
    exact hno _ _ (Or.inl rfl) h.1.2

end

/-- A run of pb-rs on a schema whose map keys are those of the language: the file says that the struct of each of its messages derives `Debug`,
`PartialEq` and `Clone`, and `Default` unless this is written out; and the types of all its fields implement these traits. -/
theorem C114_run_partial {junk : Str} {n : Nat} {j : Job} {d d' : Disk} {D E : FileDescriptor} (hn : j.noOutput = false)
    (h : writeProto junk n j d = (.ok (), d')) (hr : readProtoFile d.file j.search n j.inFile = .ok D) (hf : NoNestedMaps D)
    (hN : Numbered D) (hK : NestedPackedOk D) (hE : j.compiled n d = some E)
    (hI : ∀ t ∈ E.messages, t.imported = true → ∃ x, t.write E j.cfg = .ok x) (hX : Distinct E j.cfg)
    (hcow : ∀ i m, E.getMessage i = some m → ∀ f ∈ m.fields, f.visible j.cfg = true → isPackedFixed f = true → j.cfg.dontUseCow = false)
    (h3 : ∀ text, d.file j.inFile = some text → OneSyntax text)
    (hk : ∀ idx m, E.getMessage idx = some m → ∀ f ∈ m.allFields, f.visible j.cfg = true → KeysOk f.typ)
    (hc : j.cfg.customStructDerive = [])
    {K : Ty → Str → RVal} (hL : Literals E j.cfg K) (T : Target) :
    ∃ p text C P dflt, j.out n d = some p ∧ d'.file p = some (Doc.str text) ∧ C.T = T ∧ C.D = E ∧ C.cfg = j.cfg ∧ Generates C P dflt ∧
      ∀ idx m, Own E idx → E.getMessage idx = some m → ∃ s, P.structs (messagePath E m) = some s ∧
        StructDerives text j.cfg m ((if s.default.isSome then [] else [c! "Default"]) ++ [c! "Debug", c! "PartialEq", c! "Clone"]) ∧
        ∀ x ∈ s.fields, (∀ tr ∈ structTraits, Implements (HasTrait P) (mapKind j.cfg) tr x.2) ∧ Bounded (HasTrait P) (mapKind j.cfg) x.2 := by
  obtain ⟨p, text, C, P, dflt, h1, h2, rfl, rfl, h5, h6, G, hD, hS, hPk, hO, h7⟩ := run_program hn h hr hf hN hK hE hI hX hcow hL T
  obtain ⟨p', E', text', g1, g2, g4, g5⟩ := C90_written_partial hn h h3
  cases hE.symm.trans g2
  cases h1.symm.trans g1
  refine ⟨p, text', C, P, dflt, h1, g4, rfl, rfl, h5, G, fun idx m ho hm => ?_⟩
  obtain ⟨s, hs, _, hd, _⟩ := g5 idx m ho hm
  obtain ⟨⟨s', hs', himp⟩, _⟩ := C114_derives_partial G (by rw [h5]; exact hk) idx m hm
  obtain ⟨s2, hs2, hP2⟩ := G.structs idx m hm
  rw [h5, hs] at hs2
  cases hs2
  rw [hs'] at hP2
  cases hP2
  rw [h5] at himp
  exact ⟨s, hs', hd (Or.inl hc), himp⟩

/-! ## Examples -/

/-- As a computation. -/
def keyTypeB : FieldType → Bool
  | .float | .double | .enum _ | .message _ | .map .. | .messageOrEnum _ => false
  | _ => true

def keysOkB : FieldType → Bool
  | .map k v => keyTypeB k && keysOkB v
  | _ => true

theorem keysOk_of : (t : FieldType) → keysOkB t = true → KeysOk t
  | .map k v, h => by
    rw [keysOkB, Bool.and_eq_true] at h
    refine ⟨?_, keysOk_of v h.2⟩
    cases k <;> first | trivial | exact Bool.noConfusion h.1
  | .int32, _ | .int64, _ | .uint32, _ | .uint64, _ | .sint32, _ | .sint64, _ | .bool, _ | .enum _, _ | .fixed64, _ | .sfixed64, _ | .double, _
  | .stringCow, _ | .bytesCow, _ | .string_, _ | .bytes_, _ | .fixed32, _ | .sfixed32, _ | .float, _ | .message _, _ | .messageOrEnum _, _ => trivial

open GeneratedExample in
/-- The hypotheses hold for the example of C79 (a map, a oneof, an enum, packed numbers, a recursive message). -/
theorem C114_example (T : Target) : ∃ p text C P dflt d' m s, writeProto [] 1 job before = (.ok (), d') ∧ d'.file p = some (Doc.str text) ∧
    C.T = T ∧ Generates C P dflt ∧ C.D.getMessage [0] = some m ∧ P.structs (messagePath C.D m) = some s ∧ s.fields ≠ [] ∧
    ∀ x ∈ s.fields, (∀ tr ∈ structTraits, Implements (HasTrait P) .hash tr x.2) ∧ Bounded (HasTrait P) .hash x.2 := by
  obtain ⟨D, E, d', h1, h2, h3, h4, h5, h6, h7, h8, h9, ⟨m, hm, _⟩, _, _⟩ := conditions
  have hb : (match job.compiled 1 before with
    | some E => ((Message.preorderAll [] 0 E.messages).all fun p => (p.2.allFields.all fun f => keysOkB f.typ) && p.2.fields.all fun f => decide (f.frequency ≠ .p3optional)) &&
      (match E.getMessage [0] with | some m => (match structDef E {} m with | some s => !s.fields.isEmpty | none => false) | none => false)
    | none => false) = true := by decide +kernel
  rw [h6] at hb
  simp only [Bool.and_eq_true] at hb
  obtain ⟨hb, hne⟩ := hb
  have hall := fun idx m (hm : E.getMessage idx = some m) => List.all_eq_true.mp hb _ ((mem_preorder_file E _ _).mpr hm)
  obtain ⟨p, text, C, P, dflt, g1, g2, g3, g4, g5, g6, g7⟩ := C114_run_partial (j := job) rfl h1 h2 h3 h4 h5 h6 h7 h8 (fun _ _ _ _ _ _ _ => rfl)
    (Parse.oneSyntax_file (by decide +kernel))
    (fun idx m hm f hf _ => by
      have := hall idx m hm
      rw [Bool.and_eq_true] at this
      exact keysOk_of _ (List.all_eq_true.mp this.1 f hf)) rfl h9 T
  subst g4
  have hs := (C114_derives_partial g6 (fun idx m hm f hf _ => by
      have := hall idx m hm
      rw [Bool.and_eq_true] at this
      exact keysOk_of _ (List.all_eq_true.mp this.1 f hf)) [0] m hm).1
  obtain ⟨s, hs, hi⟩ := hs
  refine ⟨p, text, C, P, dflt, d', m, s, h1, g2, g3, g6, hm, hs, fun e => ?_, ?_⟩
  · obtain ⟨s', hd, hs'⟩ := g6.structs [0] m hm
    rw [hs] at hs'
    cases hs'
    rw [hm] at hne
    rw [g5] at hd
    have hd : structDef C.D {} m = some s := hd
    simp only [hd, e] at hne
    exact absurd hne (by decide)
  · rw [g5] at hi
    exact hi

/-- A map whose keys are floating-point numbers: pb-rs reports success. -/
theorem C114_refuted_accepted : ∃ (d : Disk) (j : Job) (t : Str), (writeProto [] 1 j d).1.isOk = true ∧
    d.file j.inFile = some (c! "message M { map<float, int32> m = 1; }") ∧
    j = { inFile := c! "x.proto", outFile := c! "x.rs" } ∧
    (writeProto [] 1 j d).2.file (c! "x.rs") = some t ∧ c! "use std::collections::HashMap;\ntype KVMap<K, V> = HashMap<K, V>;\n" <:+: t ∧
    c! "#[derive(Default, Debug, PartialEq, Clone)]\npub struct M {\n    pub m: KVMap<f32, i32>,\n}\n" <:+: t := by
  refine ⟨(disk [(c! "x.proto", c! "message M { map<float, int32> m = 1; }")] []), { inFile := c! "x.proto", outFile := c! "x.rs" },
    ((writeProto [] 1 { inFile := c! "x.proto", outFile := c! "x.rs" } (disk [(c! "x.proto", c! "message M { map<float, int32> m = 1; }")] [])).2.file (c! "x.rs")).getD [],
    by decide +kernel, by decide +kernel, rfl, by decide +kernel, by decide +kernel, by decide +kernel⟩

end QP.Rust
