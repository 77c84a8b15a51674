import Verif.Spec.Layout
import Verif.Proofs.Getters
import Verif.Proofs.Printed
/-!
# The generated file consists of the entries of `Spec/Layout.lean`
-/

namespace QP.Rust
open QP.Pbrs

theorem docs_append (a b : List Entry) : Entry.docs (a ++ b) = Entry.docs a ++ Entry.docs b := by
  induction a with
  | nil => rfl
  | cons e a ih =>
    show e.doc ++ Entry.docs (a ++ b) = (e.doc ++ Entry.docs a) ++ Entry.docs b
    rw [ih]
    rfl

theorem docs_map {α : Type} (f : α → Entry) (l : List α) : Entry.docs (l.map f) = Doc.concat (l.map fun a => (f a).doc) := by
  induction l with
  | nil => rfl
  | cons a l ih => show (f a).doc ++ Entry.docs (l.map f) = _; rw [ih]; rfl

theorem docs_concat (l : List Entry) : Entry.docs l = Doc.concat (l.map Entry.doc) := by
  have := docs_map id l
  rw [List.map_id] at this
  exact this

theorem doc_ext {a b : Doc} (h : a.str = b.str) : a = b := by
  obtain ⟨f, hf⟩ := a
  obtain ⟨g, hg⟩ := b
  have : f = g := by
    funext r
    rw [hf, hg]
    exact congrArg (· ++ r) h
  subst this
  rfl

/-! ## Derives -/

theorem derive_text (dflt : Bool) (l : List Str) :
    (let d := if dflt then d!"{joinComma l}Default" else joinComma l
     if !d.str.isEmpty then d!"{d}, " else d) = commas (derived dflt l) := by
  have more : ∀ (s : Str) (l : List Str),
      d!"{(if dflt then d!"{joinComma (s :: l)}Default" else joinComma (s :: l))}, " = commas (derived.derivedMore dflt s l) := by
    intro s l
    induction l generalizing s with
    | nil => cases dflt <;> exact doc_ext (by simp [derived.derivedMore, commas, joinComma, Doc.str, toDoc, Doc.lit, Doc.append, Doc.empty])
    | cons t l ih =>
      have := congrArg Doc.str (ih t)
      refine doc_ext ?_
      cases dflt <;> simpa [derived.derivedMore, commas, joinComma, Doc.str, toDoc, Doc.lit, Doc.append, Doc.empty] using this
  match l with
  | [] => cases dflt <;> rfl
  | [s] =>
    cases dflt
    · cases s
      · rfl
      · exact doc_ext (by simp [derived, commas, joinComma, Doc.str, toDoc, Doc.lit, Doc.append, Doc.empty])
    · exact doc_ext (by simp [derived, commas, joinComma, Doc.str, toDoc, Doc.lit, Doc.append, Doc.empty])
  | s :: t :: ss =>
    have hne : (if dflt then d!"{joinComma (s :: t :: ss)}Default" else joinComma (s :: t :: ss)).str.isEmpty = false := by
      cases dflt <;> simp [joinComma, Doc.str, toDoc, Doc.lit, Doc.append, Doc.empty]
    simp only [hne, Bool.not_false, if_true]
    have := congrArg Doc.str (more t ss)
    refine doc_ext ?_
    cases dflt <;> simpa [derived, commas, joinComma, Doc.str, toDoc, Doc.lit, Doc.append, Doc.empty] using this

/-! ## A message -/

/-- The start of a struct. -/
theorem start_text {D : FileDescriptor} {cfg : Config} {m : Message} :
    (let derive := joinComma cfg.customStructDerive
     let derive := if !m.mustGenerateImplDefault D cfg then d!"{derive}Default" else derive
     let derive := if !derive.str.isEmpty then d!"{derive}, " else derive
     ln d!"#[allow(clippy::derive_partial_eq_without_eq)]"
      ++ ln d!"#[derive({derive}Debug, PartialEq, Clone)]"
      ++ (match cfg.customRepr with | some repr => ln d!"#[repr({repr})]" | none => .empty)) =
    attributes cfg (!m.mustGenerateImplDefault D cfg) := by
  unfold attributes
  rw [← derive_text]
  rfl

theorem definition_text {D : FileDescriptor} {cfg : Config} {m : Message} {d : Doc} {fs : List (Str × Ty)}
    (h : m.writeDefinition D cfg = .ok d) (hf : structFields D cfg m = some fs) :
    (m.isUnit = false → ∃ l, structDeclares D cfg m.index = some l) ∧
    d = attributes cfg (!m.mustGenerateImplDefault D cfg) ++
      if m.isUnit then ln d!"pub struct {m.name} \{ }" else structText m.name (lifetime D cfg m) (deprecations cfg m) fs := by
  have hd : m.writeDefinition D cfg = (if m.isUnit then pure (attributes cfg (!m.mustGenerateImplDefault D cfg) ++ ln d!"pub struct {m.name} \{ }")
    else do
      let l ← m.declaresLifetime D cfg
      let fs ← emitAll (Field.writeDefinition D cfg) m.fields
      let os ← emitAll (OneOf.writeMessageDefinition D cfg) m.oneofs
      pure (attributes cfg (!m.mustGenerateImplDefault D cfg) ++ (if l then ln d!"pub struct {m.name}<'a> \{" else ln d!"pub struct {m.name} \{") ++ fs ++ os ++ ln d!"}")) := by
    rw [← start_text]
    rfl
  rw [hd] at h
  cases hu : m.isUnit
  · simp only [hu, Bool.false_eq_true, if_false] at h ⊢
    unfold structFields at hf
    obtain ⟨gs, hgs, hf⟩ := Option.bind_eq_some_iff.mp hf
    obtain ⟨os, hos, rfl⟩ := Option.map_eq_some_iff.mp hf
    obtain ⟨l, hl, h⟩ := emit_bind h
    obtain ⟨a, ha, h⟩ := emit_bind h
    obtain ⟨b, hb, h⟩ := emit_bind h
    have e1 := fields_text m.fields hgs
    rw [ha] at e1
    have e2 := oneofs_text hos
    rw [hb] at e2
    cases e1
    cases e2
    refine ⟨fun _ => ⟨l, orPanic_ok hl⟩, ?_⟩
    have e3 : Doc.concat (List.zipWith (fun d (f : Str × Ty) => fieldLine d f.1 f.2) (deprecations cfg m) (gs ++ os)) =
        Doc.concat (List.zipWith (fun d (f : Str × Ty) => fieldLine d f.1 f.2) ((m.fields.filter (·.visible cfg)).map (·.deprecated)) gs) ++
          Doc.concat (os.map fun f => ln d!"    pub {f.1}: {f.2.doc},") := by
      unfold deprecations shownFields
      rw [List.zipWith_append (by rw [List.length_map]; exact (mapM_len hgs).symm),
        zipWith_false (fun f : Str × Ty => ln d!"    pub {f.1}: {f.2.doc},") (fun d f => fieldLine d f.1 f.2) (fun _ => rfl) os m.oneofs (mapM_len hos).symm,
        concat_append]
    unfold structText lifetime
    rw [e3, orPanic_ok hl]
    cases h
    simp only [Doc.append_assoc]
    cases l <;> rfl
  · simp only [hu, if_true] at h ⊢
    cases h
    exact ⟨fun h => (by cases h), rfl⟩

/-- The own code of a message. -/
theorem own_text {D : FileDescriptor} {cfg : Config} {m : Message} {x1 x2 x3 x4 x5 x6 x7 x8 : Doc} (hs : MessageSane m)
    (hf : D.syntax_ = .proto2 → ∀ f ∈ m.fields, f.frequency ≠ .p3optional)
    (hT : ∀ o ∈ m.oneofs, ∀ f ∈ o.shown cfg, ∃ t, tyOf D cfg f.typ = some t)
    (h1 : m.writeDefinition D cfg = .ok x1)
    (h2 : emitIf (m.mustGenerateCustomDefaultConsts D cfg) (do let d ← m.writeDefaultConsts D cfg; pure (d ++ Doc.nl)) = .ok x2)
    (h3 : emitIf (m.mustGenerateGetters D cfg) (do let d ← m.writeGetters D cfg; pure (d ++ Doc.nl)) = .ok x3)
    (h4 : emitIf (m.mustGenerateImplDefault D cfg) (do let d ← m.writeImplDefault D cfg; pure (d ++ Doc.nl)) = .ok x4)
    (h5 : m.writeImplMessageRead D cfg = .ok x5) (h6 : m.writeImplMessageWrite D cfg = .ok x6)
    (h7 : emitIf cfg.genInfo (do let d ← m.writeImplMessageInfo D cfg; pure (d ++ Doc.nl)) = .ok x7)
    (h8 : emitIf D.owned (do
      let l ← orPanic (hasLifetime D cfg [] m.index)
      pure (Doc.nl ++ if l then m.writeImplOwned cfg else m.writeImplTryFrom)) = .ok x8) :
    ∃ es, ownEntries D cfg m = some es ∧
      Doc.nl ++ x1 ++ Doc.nl ++ x2 ++ x3 ++ x4 ++ x5 ++ Doc.nl ++ x6 ++ x7 ++ x8 = Entry.docs es := by
  obtain ⟨s, hsd⟩ := structDef_exists hs hT h1 h5 h6
  obtain ⟨cs, gs, hcs, hgs, hC, hG, hCG, hCt, hGt⟩ := items_text hs hf h1
  refine ⟨_, by unfold ownEntries; rw [hsd, Option.bind_some, hcs, Option.bind_some, hgs, Option.map_some], ?_⟩
  have hsd' := hsd
  unfold structDef at hsd'
  obtain ⟨fs, hfs, hsd'⟩ := Option.bind_eq_some_iff.mp hsd'
  obtain ⟨size, hsize, hsd'⟩ := Option.bind_eq_some_iff.mp hsd'
  obtain ⟨wb, hwb, hsd'⟩ := Option.bind_eq_some_iff.mp hsd'
  obtain ⟨rb, hrb, hsd'⟩ := Option.bind_eq_some_iff.mp hsd'
  obtain ⟨db, hdb, hsd'⟩ := Option.map_eq_some_iff.mp hsd'
  obtain ⟨hld, e1⟩ := definition_text h1 hfs
  have hdn : s.default.isNone = !m.mustGenerateImplDefault D cfg := by
    rw [← hsd']
    cases m.mustGenerateImplDefault D cfg <;> rfl
  have e1' : x1 = (structEntry D cfg m s).doc := by
    rw [e1]
    unfold structEntry
    rw [hdn, ← hsd']
    rfl
  have e2 : x2 = Entry.docs (if cs = [] then [] else [Entry.text (implBlock m.name (lifetime D cfg m) (cs.map ConstItem.doc) ++ Doc.nl ++ Doc.nl)]) := by
    by_cases hne : cs = []
    · rw [if_pos hne]
      have : m.mustGenerateCustomDefaultConsts D cfg = false := by
        cases h : m.mustGenerateCustomDefaultConsts D cfg
        · rfl
        · exact absurd hne (hC.mp h)
      rw [this] at h2
      cases h2
      rfl
    · rw [if_neg hne]
      obtain ⟨y, hy, h2⟩ := emit_bind (emitIf_ok h2 (hC.mpr hne))
      cases h2
      obtain ⟨l, hl, rfl⟩ := hCt hne y hy
      unfold lifetime
      rw [hl]
      rfl
  have e3 : x3 = Entry.docs (if gs = [] ∨ cfg.generateGetters = false then [] else
      [Entry.text (implBlock m.name (lifetime D cfg m) (gs.map GetterItem.doc) ++ Doc.nl ++ Doc.nl)]) := by
    by_cases hne : gs = [] ∨ cfg.generateGetters = false
    · rw [if_pos hne]
      have : m.mustGenerateGetters D cfg = false := by
        cases h : m.mustGenerateGetters D cfg
        · rfl
        · obtain ⟨a, b⟩ := hG.mp h
          rcases hne with hne | hne
          · exact absurd hne a
          · rw [b] at hne; cases hne
      rw [this] at h3
      cases h3
      rfl
    · rw [if_neg hne]
      have hg : cfg.generateGetters = true := by
        cases h : cfg.generateGetters
        · exact absurd (Or.inr h) hne
        · rfl
      obtain ⟨y, hy, h3⟩ := emit_bind (emitIf_ok h3 (hG.mpr ⟨fun h => hne (Or.inl h), hg⟩))
      cases h3
      obtain ⟨l, hl, rfl⟩ := hGt hg y hy
      unfold lifetime
      rw [hl]
      rfl
  have e4 : x4 = Entry.docs (match s.default with | some es => [Entry.text (defaultText m.name (lifetime D cfg m) es ++ Doc.nl)] | none => []) := by
    rw [← hsd']
    cases hg : m.mustGenerateImplDefault D cfg
    · rw [hg] at h4
      cases h4
      rfl
    · have hu : m.isUnit = false := by
        cases hu : m.isUnit
        · rfl
        · obtain ⟨_, fields, oneofs, _, _, _, _, ms, _, _, _⟩ := m
          unfold Message.isUnit at hu
          simp only [Bool.and_eq_true, List.isEmpty_iff] at hu
          obtain ⟨⟨h1, h2⟩, _⟩ := hu
          subst h1
          cases hg
      obtain ⟨y, hy, h4⟩ := emit_bind (emitIf_ok h4 hg)
      cases h4
      obtain ⟨l, hl⟩ := hld hu
      rw [default_body_text hu hl hdb] at hy
      cases hy
      unfold lifetime
      rw [hl]
      cases l <;> rfl
  have e5 : x5 = if m.isUnit then unitReadText m.name s.read else readText m.name (lifetime D cfg m) s.read := by
    rw [← hsd']
    cases hu : m.isUnit
    · obtain ⟨l, hl⟩ := hld hu
      rw [read_body_text hu hl hrb] at h5
      cases h5
      unfold lifetime
      rw [hl]
      cases l <;> rfl
    · rw [unit_body_text hu] at h5
      cases h5
      rfl
  have e6 : x6 = match s.size, s.write with
     | some b, some w => writeText m.name (lifetime D cfg m) b w
     | _, _ => ln d!"impl MessageWrite for {m.name} \{ }" := by
    rw [← hsd']
    unfold Message.writeImplMessageWrite at h6
    cases hu : m.isUnit
    · obtain ⟨l, hl⟩ := hld hu
      have hl' : m.declaresLifetime D cfg = .ok l := orPanic_some hl
      rw [hu, hl', size_body_text hsize, write_body_text hwb] at h6
      cases h6
      unfold lifetime
      rw [hl]
      cases l <;> rfl
    · rw [hu] at h6
      cases h6
      rfl
  have e7 : x7 = Entry.docs (if cfg.genInfo then [Entry.text (infoText m.name (lifetime D cfg m) (m.module ++ '.' :: m.name) ++ Doc.nl)] else []) := by
    cases hg : cfg.genInfo
    · rw [hg] at h7
      cases h7
      rfl
    · obtain ⟨y, hy, h7⟩ := emit_bind (emitIf_ok h7 hg)
      cases h7
      unfold Message.writeImplMessageInfo at hy
      obtain ⟨l, hl, hy⟩ := emit_bind hy
      cases hy
      unfold lifetime
      rw [orPanic_ok hl]
      have hp : d!"    const PATH : &'static str = \"{m.module}.{m.name}\";" = d!"    const PATH : &'static str = \"{(m.module ++ '.' :: m.name : Str)}\";" :=
        doc_ext (by simp [Doc.str, toDoc, Doc.lit, Doc.append, Doc.empty])
      rw [hp]
      cases l <;> rfl
  have e8 : x8 = Entry.docs (ownedEntries D cfg m) := by
    unfold ownedEntries
    cases ho : D.owned
    · rw [ho] at h8
      cases h8
      rfl
    · obtain ⟨l, hl, h8⟩ := emit_bind (emitIf_ok h8 ho)
      cases h8
      rw [orPanic_ok hl]
      cases l
      · rfl
      · simp only [if_true]
        unfold Message.writeImplOwned
        cases hg : cfg.genInfo
        · rfl
        · have hp : ownedInfoText m.name (m.module ++ '.' :: m.name) = d!"
            impl MessageInfo for {m.name}Owned \{
                const PATH: &'static str = \"{m.module}.{m.name}\";
            }
            " := doc_ext (by simp [ownedInfoText, Doc.str, toDoc, Doc.lit, Doc.append, Doc.empty])
          refine Eq.trans ?_ (docs_append _ _).symm
          show _ = Entry.docs _ ++ Entry.docs [Entry.text (ownedInfoText m.name (m.module ++ '.' :: m.name))]
          rw [hp]
          rfl
  unfold implEntries
  rw [e1', e2, e3, e4, e5, e6, e7, e8]
  simp only [docs_append]
  rfl

/-! ## Enums and oneofs -/

theorem enum_of_docs (e : Enumerator) (first : Str) :
    (enumOf e first).definition = e.writeDefinition ∧ (enumOf e first).implFromI32 = e.writeFromI32 ∧ (enumOf e first).implFromStr = e.writeFromStr := by
  have hp : ∀ x y : Str, pathDoc [x, y] = d!"{x}::{y}" := fun _ _ => rfl
  refine ⟨rfl, ?_, ?_⟩
  · unfold EnumItem.implFromI32 Enumerator.writeFromI32 enumOf
    simp only [List.map_map, Function.comp_def, hp]
    rfl
  · unfold EnumItem.implFromStr Enumerator.writeFromStr enumOf
    simp only [List.map_map, Function.comp_def, hp]
    rfl

theorem enum_text {e : Enumerator} {d : Doc} (h : e.write = .ok d) : ∃ x, enumEntry e = some x ∧ d = x.doc := by
  unfold Enumerator.write at h
  unfold enumEntry
  cases hf : e.fields with
  | nil =>
    rw [hf] at h
    cases h
    exact ⟨_, if_pos rfl, by rw [(enum_of_docs e []).1.symm]; rfl⟩
  | cons f fs =>
    rw [hf] at h
    obtain ⟨a, ha, h⟩ := emit_bind h
    cases h
    unfold Enumerator.writeImplDefault at ha
    obtain ⟨first, h1, ha⟩ := emit_bind ha
    cases ha
    rw [if_neg (by simp), orPanic_ok h1]
    refine ⟨_, rfl, ?_⟩
    obtain ⟨e1, e2, e3⟩ := enum_of_docs e first
    show _ = Doc.nl ++ (enumOf e first).definition ++ Doc.nl ++ (enumOf e first).implDefault ++ Doc.nl ++ (enumOf e first).implFromI32 ++
      Doc.nl ++ (enumOf e first).implFromStr
    rw [e1, e2, e3]
    rfl

theorem oneof_text {D : FileDescriptor} {cfg : Config} {o : OneOf} {d : Doc} (h : o.write D cfg = .ok d) :
    ∃ x, oneofEntry D cfg o = some x ∧ d = x.doc := by
  obtain ⟨l, vs, hl, hvs, _⟩ := oneof_has h
  unfold oneofEntry
  rw [hl, Option.bind_some, hvs]
  refine ⟨_, rfl, ?_⟩
  unfold OneOf.write at h
  obtain ⟨a, ha, h⟩ := emit_bind h
  obtain ⟨b, hb, h⟩ := emit_bind h
  cases h
  unfold OneOf.writeDefinition at ha
  unfold OneOf.writeImplDefault at hb
  rw [orPanic_some hl] at ha hb
  obtain ⟨l', hl', ha⟩ := emit_bind ha
  cases hl'
  obtain ⟨c, hc, ha⟩ := emit_bind ha
  rw [variants_text o.fields hvs] at hc
  cases hc
  cases ha
  cases hb
  cases l <;> rfl

theorem emitAll_entries {α : Type} {w : α → Emit Doc} {t : α → Option Entry} (ht : ∀ a d, w a = .ok d → ∃ x, t a = some x ∧ d = x.doc) :
    ∀ {l : List α} {d : Doc}, emitAll w l = .ok d → ∃ xs, l.mapM t = some xs ∧ d = Entry.docs xs
  | [], d, h => by cases h; exact ⟨[], rfl, rfl⟩
  | a :: l, d, h => by
    rw [emitAll] at h
    obtain ⟨x, hx, h⟩ := emit_bind h
    obtain ⟨y, hy, h⟩ := emit_bind h
    cases h
    obtain ⟨e, he, rfl⟩ := ht a x hx
    obtain ⟨es, hes, rfl⟩ := emitAll_entries ht hy
    exact ⟨e :: es, by rw [List.mapM_cons, he, hes]; rfl, rfl⟩

/-! ## Imports -/

theorem anyM_eq {α : Type} {p : α → Option Bool} {q : α → Prop} (hq : ∀ a b, p a = some b → (b = true ↔ q a)) :
    ∀ {l : List α} {b : Bool}, anyM p l = some b → (b = true ↔ ∃ a ∈ l, q a)
  | [], b, h => by cases h; simp
  | a :: l, b, h => by
    unfold anyM at h
    cases hp : p a with
    | none => rw [hp] at h; cases h
    | some c =>
      rw [hp] at h
      cases c
      · have := anyM_eq hq (l := l) (b := b) h
        have hn : ¬ q a := fun hqa => by have := (hq a false hp).mpr hqa; cases this
        rw [this]
        simp [hn]
      · cases h
        simp [(hq a true hp).mp rfl]

theorem any_iff {α : Type} {l : List α} {p : α → Bool} {q : α → Prop} (h : ∀ a, p a = true ↔ q a) : l.any p = true ↔ ∃ a ∈ l, q a := by
  rw [List.any_eq_true]
  exact exists_congr fun a => and_congr_right fun _ => h a

theorem uses_text {D : FileDescriptor} {cfg : Config} {ms : List Message} {d : Doc} (h : Message.writeCommonUses D cfg ms = .ok d) :
    d = Entry.docs (commonUses D cfg ms) := by
  unfold Message.writeCommonUses at h
  dsimp only at h
  obtain ⟨box, hbox, h⟩ := emit_bind h
  have hb : box = true ↔ (cfg.nostd = true ∧
      ∃ m ∈ ms, (D.owned = true ∧ hasLifetime D cfg [] m.index = some true) ∨ ∃ f ∈ m.allFields, f.boxed = true) := by
    cases hn : cfg.nostd
    · rw [hn] at hbox
      cases hbox
      simp
    · rw [hn] at hbox
      have := orPanic_ok hbox
      simp only [if_true] at this
      rw [anyM_eq (q := fun m => (D.owned = true ∧ hasLifetime D cfg [] m.index = some true) ∨ ∃ f ∈ m.allFields, f.boxed = true) ?_ this]
      · simp
      · intro m b hb
        unfold Message.usesBox at hb
        cases ho : D.owned
        · rw [ho] at hb
          cases hb
          simp
        · rw [ho] at hb
          cases hl : hasLifetime D cfg [] m.index with
          | none => rw [hl] at hb; cases hb
          | some l =>
            rw [hl] at hb
            cases l <;> cases hb <;> simp
  have hc : (ms.any fun m => m.allFields.any fun f => f.typ.hasCow || f.isPacked && f.typ.isFixedSize) = true ↔
      ∃ m ∈ ms, ∃ f ∈ m.allFields, f.typ.hasCow = true ∨ (f.isPacked = true ∧ f.typ.isFixedSize = true) :=
    any_iff fun m => any_iff fun f => by simp
  have ho : (ms.any fun m => m.allFields.any fun f => f.typ.isNonCow) = true ↔ ∃ m ∈ ms, ∃ f ∈ m.allFields, f.typ.isNonCow = true :=
    any_iff fun m => any_iff fun f => by simp
  have hm : ((ms.filter (fun m => !m.imported)).any fun m => m.allFields.any fun f => f.typ.isMap) = true ↔
      ∃ m ∈ ms, m.imported = false ∧ ∃ f ∈ m.allFields, f.typ.isMap = true := by
    rw [any_iff fun m => any_iff (q := fun f : Field => f.typ.isMap = true) fun f => Iff.rfl]
    simp [and_assoc]
  unfold commonUses
  simp only [← hb, ← hc, ← ho, ← hm]
  generalize (ms.any fun m => m.allFields.any fun f => f.typ.hasCow || f.isPacked && f.typ.isFixedSize) = c at h
  generalize (ms.any fun m => m.allFields.any fun f => f.typ.isNonCow) = o at h
  generalize ((ms.filter (fun m => !m.imported)).any fun m => m.allFields.any fun f => f.typ.isMap) = k at h
  simp only [docs_append]
  generalize cfg.nostd = n at h
  generalize cfg.dontUseCow = w at h
  generalize cfg.hashbrown = b at h
  cases h
  cases n <;> cases w <;> cases c <;> cases o <;> cases box <;> cases k <;> cases b <;> rfl

/-! ## Messages and files -/

/-- What pb-rs knows about the fields of a message when it prints them. -/
structure Fit (D : FileDescriptor) (m : Message) : Prop where
  sane : MessageSane m
  freq : D.syntax_ = .proto2 → ∀ f ∈ m.fields, f.frequency ≠ .p3optional

theorem oneof_types {D : FileDescriptor} {cfg : Config} {o : OneOf} {d : Doc} (h : o.write D cfg = .ok d) :
    ∀ f ∈ o.shown cfg, ∃ t, tyOf D cfg f.typ = some t := by
  obtain ⟨_, vs, _, h2, _⟩ := oneof_has h
  have : ∀ {l : List Field} {vs : List (Str × Ty)}, l.mapM (fun f => (tyOf D cfg f.typ).map fun t => (f.name, if f.boxed then Ty.box t else t)) = some vs →
      ∀ f ∈ l, ∃ t, tyOf D cfg f.typ = some t := by
    intro l
    induction l with
    | nil => intro vs _ f hf; cases hf
    | cons g l ih =>
      intro vs h f hf
      rw [List.mapM_cons] at h
      obtain ⟨b, hb, h⟩ := Option.bind_eq_some_iff.mp h
      obtain ⟨bs, hbs, h⟩ := Option.bind_eq_some_iff.mp h
      cases hf with
      | head => obtain ⟨t, ht, _⟩ := Option.map_eq_some_iff.mp hb; exact ⟨t, ht⟩
      | tail _ hf => exact ih hbs f hf
  exact this h2

mutual
theorem message_text {D : FileDescriptor} {cfg : Config} : ∀ (m : Message) {d : Doc}, (∀ js x, m.descend js = some x → Fit D x) →
    m.write D cfg = .ok d → ∃ es, messageEntries D cfg m = some es ∧ d = Entry.docs es
  | ⟨name, fields, oneofs, nums, names, imported, pkg, messages, enums, module, index⟩, d, hfit, h => by
    rw [Message.write] at h
    obtain ⟨x1, h1, h⟩ := emit_bind h
    obtain ⟨x2, h2, h⟩ := emit_bind h
    obtain ⟨x3, h3, h⟩ := emit_bind h
    obtain ⟨x4, h4, h⟩ := emit_bind h
    obtain ⟨x5, h5, h⟩ := emit_bind h
    obtain ⟨x6, h6, h⟩ := emit_bind h
    obtain ⟨x7, h7, h⟩ := emit_bind h
    obtain ⟨x8, h8, h⟩ := emit_bind h
    obtain ⟨x9, h9, h⟩ := emit_bind h
    cases h
    have hme := hfit [] _ rfl
    have hT : ∀ o ∈ oneofs, ∀ f ∈ o.shown cfg, ∃ t, tyOf D cfg f.typ = some t := by
      intro o ho
      have := emitIf_ok h9 (by cases oneofs <;> first | (cases ho; done) | (simp; done))
      obtain ⟨y1, k1, this⟩ := emit_bind this
      obtain ⟨y2, k2, this⟩ := emit_bind this
      obtain ⟨y3, k3, this⟩ := emit_bind this
      obtain ⟨y4, k4, this⟩ := emit_bind this
      obtain ⟨z, hz, _⟩ := emitAll_has k4 o ho
      exact oneof_types hz
    obtain ⟨own, hown, eown⟩ := own_text hme.sane hme.freq hT h1 h2 h3 h4 h5 h6 h7 h8
    unfold messageEntries
    simp only [hown, Option.bind_some]
    rw [eown]
    cases hin : (messages.isEmpty && enums.isEmpty && oneofs.isEmpty)
    · rw [hin] at h9
      simp only [Bool.false_eq_true, if_false]
      obtain ⟨y1, k1, h9⟩ := emit_bind h9
      obtain ⟨y2, k2, h9⟩ := emit_bind h9
      obtain ⟨y3, k3, h9⟩ := emit_bind h9
      obtain ⟨y4, k4, h9⟩ := emit_bind h9
      cases h9
      have e1 := uses_text k1
      obtain ⟨ms, hms, e2⟩ := messages_text messages (fun i x hx js y hy => hfit (i :: js) y (by
        show (messages[i]?.bind fun m => m.descend js) = some y
        rw [hx]; exact hy)) k2
      obtain ⟨es, hes, e3⟩ := emitAll_entries (t := enumEntry) (fun a d h => enum_text h) k3
      obtain ⟨os, hos, e4⟩ := emitAll_entries (t := oneofEntry D cfg) (fun a d h => oneof_text h) k4
      rw [hms, Option.bind_some]
      unfold innerEntries
      simp only [hes, hos, Option.bind_some, Option.map_some]
      refine ⟨_, rfl, ?_⟩
      rw [docs_append, e1, e2, e3, e4]
      congr 1
      show _ = Doc.nl ++ ((ln d!"pub mod {(c! "mod_" ++ name : Str)} \{" ++ Doc.nl ++ Entry.docs _ ++ ln d!"}") ++ Doc.empty)
      simp only [docs_append]
      have hg : (if (!messages.isEmpty || !oneofs.isEmpty) = true then ln d!"use super::*;" else Doc.empty) =
          Entry.docs (if messages = [] ∧ oneofs = [] then [] else [Entry.supers 1]) := by
        cases messages <;> cases oneofs <;> rfl
      rw [hg]
      rfl
    · rw [hin] at h9
      cases h9
      exact ⟨own, if_pos rfl, rfl⟩
theorem messages_text {D : FileDescriptor} {cfg : Config} : ∀ (l : List Message) {d : Doc},
    (∀ (i : Nat) x, l[i]? = some x → ∀ js y, x.descend js = some y → Fit D y) →
    Message.writeAll D cfg l = .ok d → ∃ es, messagesEntries D cfg l = some es ∧ d = Entry.docs es
  | [], d, _, h => by cases h; exact ⟨[], rfl, rfl⟩
  | m :: l, d, hfit, h => by
    rw [Message.writeAll] at h
    obtain ⟨x, hx, h⟩ := emit_bind h
    obtain ⟨y, hy, h⟩ := emit_bind h
    cases h
    obtain ⟨es, hes, rfl⟩ := message_text m (hfit 0 m rfl) hx
    obtain ⟨ess, hess, rfl⟩ := messages_text l (fun i => hfit (i + 1)) hy
    refine ⟨es ++ ess, ?_, (docs_append _ _).symm⟩
    rw [messagesEntries, hes, Option.bind_some, hess, Option.map_some]
end

theorem top_text {D : FileDescriptor} {cfg : Config} : ∀ (l : List Message) {d : Doc},
    (∀ x ∈ l, ∀ js y, x.descend js = some y → Fit D y) →
    emitAll (fun m => m.write D cfg) l = .ok d → ∃ es, messagesEntries D cfg l = some es ∧ d = Entry.docs es
  | [], d, _, h => by cases h; exact ⟨[], rfl, rfl⟩
  | m :: l, d, hfit, h => by
    rw [emitAll] at h
    obtain ⟨x, hx, h⟩ := emit_bind h
    obtain ⟨y, hy, h⟩ := emit_bind h
    cases h
    obtain ⟨es, hes, rfl⟩ := message_text m (hfit m List.mem_cons_self) hx
    obtain ⟨ess, hess, rfl⟩ := top_text l (fun x hx => hfit x (List.mem_cons_of_mem _ hx)) hy
    refine ⟨es ++ ess, ?_, (docs_append _ _).symm⟩
    rw [messagesEntries, hes, Option.bind_some, hess, Option.map_some]

theorem docs_replicate (n : Nat) (d : Doc) : Entry.docs (List.replicate n (.text d)) = Doc.concat (List.replicate n d) := by
  induction n with
  | zero => rfl
  | succ n ih => show d ++ Entry.docs (List.replicate n (.text d)) = _; rw [ih]; rfl

theorem concat_const {α : Type} (l : List α) (d : Doc) : Doc.concat (l.map fun _ => d) = Doc.concat (List.replicate l.length d) := by
  induction l with
  | nil => rfl
  | cons a l ih => show d ++ Doc.concat (l.map fun _ => d) = _; rw [ih]; rfl

/-- The text of a file is that of its entries. -/
theorem file_text {D : FileDescriptor} {cfg : Config} {filename : Str} {services : Nat} {d : Doc}
    (hE : ∀ e ∈ D.enums, e.imported = false → e.fields = [] → e.partiallyQualified = [])
    (hM : ∀ m ∈ D.messages, m.imported = false → ∀ js x, m.descend js = some x → Fit D x)
    (h : D.write cfg filename services = .ok d) : ∃ es, fileEntries D cfg filename services = some es ∧ d = Entry.docs es := by
  unfold FileDescriptor.write at h
  obtain ⟨u, hu, h⟩ := emit_bind h
  obtain ⟨e, he, h⟩ := emit_bind h
  obtain ⟨m, hm, h⟩ := emit_bind h
  cases h
  obtain ⟨ms, hms, e2⟩ := top_text _ (fun x hx => by
    obtain ⟨h1, h2⟩ := List.mem_filter.mp hx
    exact hM x h1 (by revert h2; cases x.imported <;> decide)) hm
  have he' : emitAll Enumerator.write (D.enums.filter fun e => !e.imported) = .ok e := by
    unfold FileDescriptor.writeEnums at he
    rw [← he]
    have : ∀ (l : List Enumerator), (∀ e ∈ l, e.fields = [] → e.partiallyQualified = []) → (∃ d, emitAll (fun e => do
        let d ← Enumerator.writeImplDefault e
        pure (Doc.nl ++ e.writeDefinition ++ Doc.nl ++ d ++ Doc.nl ++ e.writeFromI32 ++ Doc.nl ++ e.writeFromStr)) l = .ok d) →
        emitAll Enumerator.write l = emitAll (fun e => do
          let d ← Enumerator.writeImplDefault e
          pure (Doc.nl ++ e.writeDefinition ++ Doc.nl ++ d ++ Doc.nl ++ e.writeFromI32 ++ Doc.nl ++ e.writeFromStr)) l := by
      intro l
      induction l with
      | nil => intro _ _; rfl
      | cons a l ih =>
        rintro hl ⟨d, hd⟩
        rw [emitAll] at hd
        obtain ⟨x, hx, hd⟩ := emit_bind hd
        obtain ⟨y, hy, hd⟩ := emit_bind hd
        rw [emitAll, emitAll, ih (fun e he => hl e (List.mem_cons_of_mem _ he)) ⟨y, hy⟩]
        have : a.write = (do
            let d ← Enumerator.writeImplDefault a
            pure (Doc.nl ++ a.writeDefinition ++ Doc.nl ++ d ++ Doc.nl ++ a.writeFromI32 ++ Doc.nl ++ a.writeFromStr)) := by
          unfold Enumerator.write
          rw [if_neg]
          intro hn
          obtain ⟨z, hz, _⟩ := emit_bind hx
          unfold Enumerator.writeImplDefault at hz
          rw [hl a List.mem_cons_self (by simpa using hn)] at hz
          cases hz
        rw [this]
    exact this _ (fun e he => by
      obtain ⟨h1, h2⟩ := List.mem_filter.mp he
      exact hE e h1 (by revert h2; cases e.imported <;> decide)) ⟨e, he⟩
  obtain ⟨es, hes, e1⟩ := emitAll_entries (t := enumEntry) (fun a d h => enum_text h) he'
  unfold fileEntries
  rw [hes, Option.bind_some, hms]
  refine ⟨_, rfl, ?_⟩
  have e3 : u = Entry.docs (crateUses D cfg) := by
    unfold FileDescriptor.writeUses at hu
    unfold crateUses
    have hall : (D.messages.all Message.isUnit = true) ↔ ∀ m ∈ D.messages, m.isUnit = true := by simp
    simp only [← hall]
    cases ha : D.messages.all Message.isUnit
    · rw [ha] at hu
      simp only [Bool.false_eq_true, if_false] at hu ⊢
      obtain ⟨x, hx, hu⟩ := emit_bind hu
      rw [uses_text hx] at hu
      cases hu
      simp only [docs_append]
      cases D.owned <;> rfl
    · rw [ha] at hu
      simp only [if_true] at hu ⊢
      cases hu
      cases D.owned <;> rfl
  have e4 : D.writeImports = (Entry.supers (splitDot D.package).length).doc := by
    unfold FileDescriptor.writeImports
    rw [concat_const]
    rfl
  have e5 : (if cfg.headers = true then FileDescriptor.writeHeaders cfg filename else Doc.empty) =
      Entry.docs (if cfg.headers = true then [Entry.text (headerText cfg filename)] else []) := by
    cases cfg.headers <;> rfl
  simp only [docs_append, docs_replicate]
  rw [e1, e2, e3, e4, e5]
  rfl

end QP.Rust
