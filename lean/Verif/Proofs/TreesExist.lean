import Verif.Proofs.Trees
import Verif.Spec.Generated
set_option linter.unusedVariables false
/-!
# Where pb-rs prints a message, the trees exist
-/

namespace QP.Rust
open QP.Pbrs

theorem orPanic_ok {α : Type} {o : Option α} {a : α} (h : orPanic o = .ok a) : o = some a := by
  cases o with
  | none => cases h
  | some b => cases h; rfl

theorem emit_bind {α β : Type} {a : Emit α} {f : α → Emit β} {b : β} (h : (a >>= f) = .ok b) : ∃ x, a = .ok x ∧ f x = .ok b := by
  cases a with
  | error e => cases h
  | ok x => exact ⟨x, rfl, h⟩

theorem ty_exists {D : FileDescriptor} {cfg : Config} : ∀ {t : FieldType} {d : Doc}, t.typeText D cfg = .ok d → ∃ ty, tyOf D cfg t = some ty := by
  intro t
  induction t with
  | enum e =>
    intro d h
    simp only [FieldType.typeText] at h
    obtain ⟨en, he, _⟩ := emit_bind h
    exact ⟨_, by simp only [tyOf, orPanic_ok he]; rfl⟩
  | message i =>
    intro d h
    simp only [FieldType.typeText] at h
    obtain ⟨m, hm, h⟩ := emit_bind h
    obtain ⟨l, hl, h⟩ := emit_bind h
    exact ⟨_, by simp only [tyOf, orPanic_ok hm, orPanic_ok hl]; rfl⟩
  | map k v ihk ihv =>
    intro d h
    simp only [FieldType.typeText] at h
    obtain ⟨dk, hk, h⟩ := emit_bind h
    obtain ⟨dv, hv, h⟩ := emit_bind h
    obtain ⟨tk, hk⟩ := ihk hk
    obtain ⟨tv, hv⟩ := ihv hv
    exact ⟨_, by simp only [tyOf, hk, hv]; rfl⟩
  | messageOrEnum s => intro d h; cases h
  | _ => intro d h; exact ⟨_, rfl⟩

theorem read_exists {D : FileDescriptor} {cfg : Config} {t : FieldType} {p : Doc × Doc} {ty : Ty} (h : t.readFn D = .ok p)
    (ht : tyOf D cfg t = some ty) : ∃ e, readTree D t = some e := by
  cases t with
  | enum e =>
    obtain ⟨en, he, _⟩ := Option.map_eq_some_iff.mp ht
    exact ⟨_, by simp only [readTree, he]; rfl⟩
  | message i =>
    obtain ⟨m, hm, _⟩ := Option.bind_eq_some_iff.mp ht
    exact ⟨_, by simp only [readTree, hm]; rfl⟩
  | map k v => cases h
  | messageOrEnum s => cases h
  | _ => exact ⟨_, rfl⟩

theorem size_exists {t : FieldType} {s d : Doc} (h : t.getSize s = .ok d) (hm : t.isMap = false) (e : Expr) : ∃ x, sizeTree t e = some x := by
  cases t <;> first | (cases hm; done) | (cases h; done) | exact ⟨_, rfl⟩

theorem write_exists {t : FieldType} {s d : Doc} {b : Bool} (h : t.getWrite s b = .ok d) (hm : t.isMap = false) (e : Expr) (b' : Bool) :
    ∃ x, writeTree t e b' = some x := by
  cases t <;> cases b' <;> first | (cases hm; done) | (cases h; done) | exact ⟨_, rfl⟩

theorem singularDefault_exists {D : FileDescriptor} {t : FieldType} {d : Doc} (h : t.singularDefault D = .ok d) :
    ∃ e, singularDefault D t = some e := by
  cases t with
  | enum e =>
    simp only [FieldType.singularDefault] at h
    obtain ⟨en, he, h⟩ := emit_bind h
    obtain ⟨s, hs, h⟩ := emit_bind h
    exact ⟨_, by simp only [singularDefault, orPanic_ok he, Option.bind_some, orPanic_ok hs]; rfl⟩
  | message i =>
    simp only [FieldType.singularDefault] at h
    obtain ⟨m, hm, h⟩ := emit_bind h
    exact ⟨_, by simp only [singularDefault, orPanic_ok hm]; rfl⟩
  | map k v => cases h
  | messageOrEnum s => cases h
  | _ => exact ⟨_, rfl⟩

theorem default_exists {D : FileDescriptor} {cfg : Config} {f : Field} {d : Doc} {ty : Ty} (h : f.defaultText D cfg = .ok d)
    (ht : tyOf D cfg f.typ = some ty) : ∃ e, defaultTree D cfg f = some e := by
  unfold Field.defaultText at h
  unfold defaultTree
  cases hg : f.frequency.generated <;> simp only [hg] at h ⊢
  · rw [ht]
    by_cases hb : f.boxed = true
    · rw [if_pos hb]; exact ⟨_, rfl⟩
    · rw [if_neg hb] at h ⊢
      by_cases ho : f.frequency.isOptional = true
      · rw [if_pos ho]; exact ⟨_, rfl⟩
      · rw [if_neg ho] at h ⊢
        cases hd : f.default with
        | none =>
          simp only [hd] at h
          exact singularDefault_exists h
        | some s =>
          simp only
          split
          · exact ⟨_, rfl⟩
          · exact ⟨_, rfl⟩
          · rw [ht]; exact ⟨_, rfl⟩
  · rw [ht]; exact ⟨_, rfl⟩
  · rw [ht]; exact ⟨_, rfl⟩

/-- What pb-rs ensures about a field (C65, C49): `map` types are used in `map` fields only, only messages are boxed. -/
structure FieldSane (f : Field) : Prop where
  map : f.frequency.isMap = f.typ.isMap
  boxed : f.boxed = true → ∃ j, f.typ = .message j

theorem fieldTy_exists {D : FileDescriptor} {cfg : Config} {f : Field} {d : Doc} (h : f.fieldTypeText D cfg = .ok d) :
    ∃ t, tyOf D cfg f.typ = some t := by
  unfold Field.fieldTypeText at h
  obtain ⟨x, hx, _⟩ := emit_bind h
  exact ty_exists hx

theorem gen_map {f : Frequency} (h : f.generated = .map) : f.isMap = true := by
  unfold Frequency.generated at h
  split at h
  · assumption
  · split at h <;> cases h

theorem gen_not_map {f : Frequency} (h : f.generated ≠ .map) : f.isMap = false := by
  unfold Frequency.generated at h
  cases hm : f.isMap
  · rfl
  · rw [hm] at h; exact (h rfl).elim

/-- What `matchArm` starts with. -/
theorem matchArm_start {D : FileDescriptor} {f : Field} {d : Doc} (h : f.matchArm D = .ok d) (hm : f.frequency.isMap = false) :
    ∃ p, f.typ.readFn D = .ok p := by
  unfold Field.matchArm at h
  simp only [hm, Bool.false_eq_true, if_false] at h
  obtain ⟨p, hp, _⟩ := emit_bind h
  exact ⟨p, hp⟩

/-- `matchArm` of a map. -/
theorem matchArm_map {D : FileDescriptor} {f : Field} {d : Doc} {k v : FieldType} (h : f.matchArm D = .ok d) (hm : f.frequency.isMap = true)
    (hb : f.boxed = false) (hf : f.typ = .map k v) : ∃ p q, k.readFn D = .ok p ∧ v.readFn D = .ok q := by
  have hg : f.frequency.generated = .map := by unfold Frequency.generated; rw [hm]; rfl
  unfold Field.matchArm at h
  simp only [hm, if_true, pure_bind, hb, Bool.false_eq_true, if_false, hg, hf] at h
  obtain ⟨p, hp, h⟩ := emit_bind h
  obtain ⟨q, hq, h⟩ := emit_bind h
  exact ⟨p, q, hp, hq⟩

theorem match_exists {D : FileDescriptor} {cfg : Config} {f : Field} {d : Doc} {ty : Ty} (hs : FieldSane f)
    (h : f.matchArm D = .ok d) (ht : tyOf D cfg f.typ = some ty) : ∃ b, matchTree D cfg f = some b := by
  unfold matchTree
  cases hb : f.boxed
  · simp only [Bool.false_eq_true, if_false]
    cases hg : f.frequency.generated <;> simp only
    · obtain ⟨p, hp⟩ := matchArm_start h (gen_not_map (by rw [hg]; decide))
      obtain ⟨e, he⟩ := read_exists hp ht
      rw [he]
      exact ⟨_, rfl⟩
    · obtain ⟨p, hp⟩ := matchArm_start h (gen_not_map (by rw [hg]; decide))
      obtain ⟨e, he⟩ := read_exists hp ht
      rw [he, ht]
      exact ⟨_, rfl⟩
    · have hm := hs.map.symm.trans (gen_map hg)
      cases hf : f.typ <;> rw [hf] at hm <;> try (cases hm; done)
      rename_i k v
      rw [hf] at ht
      obtain ⟨p, q, hk, hv⟩ := matchArm_map h (gen_map hg) hb hf
      simp only [tyOf] at ht
      obtain ⟨kt, hkt, ht⟩ := Option.bind_eq_some_iff.mp ht
      obtain ⟨vt, hvt, ht⟩ := Option.map_eq_some_iff.mp ht
      obtain ⟨ke, hk⟩ := read_exists hk hkt
      obtain ⟨ve, hv⟩ := read_exists hv hvt
      simp only [hkt, hvt, hk, hv]
      exact ⟨_, rfl⟩
  · obtain ⟨j, hj⟩ := hs.boxed hb
    have hm : f.frequency.isMap = false := by rw [hs.map, hj]; rfl
    obtain ⟨p, hp⟩ := matchArm_start h hm
    obtain ⟨e, he⟩ := read_exists hp ht
    rw [hj] at he
    simp only [if_true, hj, hm, Bool.false_eq_true, if_false]
    rw [he]
    exact ⟨_, rfl⟩

theorem read_not_map {D : FileDescriptor} {t : FieldType} {p : Doc × Doc} (h : t.readFn D = .ok p) : t.isMap = false := by
  cases t <;> first | rfl | (cases h; done)

/-- The types of keys and values that can be printed are no maps. -/
theorem entry_flat {D : FileDescriptor} {f : Field} {d : Doc} {k v : FieldType} (hs : FieldSane f) (h : f.matchArm D = .ok d)
    (hf : f.typ = .map k v) : k.isMap = false ∧ v.isMap = false := by
  have hb : f.boxed = false := by
    cases hb : f.boxed
    · rfl
    · obtain ⟨j, hj⟩ := hs.boxed hb
      rw [hf] at hj
      cases hj
  have hm : f.frequency.isMap = true := by rw [hs.map, hf]; rfl
  obtain ⟨p, q, hk, hv⟩ := matchArm_map h hm hb hf
  exact ⟨read_not_map hk, read_not_map hv⟩

theorem presence_optional {f : Field} (h : f.frequency.generated = .singular) (hs : FieldSane f) (ho : f.frequency.isOptional = true) :
    f.hasPresence = true := by
  have hm : f.typ.isMap = false := by rw [← hs.map]; exact gen_not_map (by rw [h]; decide)
  unfold Field.hasPresence
  cases hf : f.frequency <;> rw [hf] at ho <;> first | (cases ho; done) | simp [hm]

theorem sizeTerms_exists {D : FileDescriptor} {cfg : Config} {f : Field} {d a : Doc} {ty : Ty} (hs : FieldSane f)
    (ha : f.matchArm D = .ok a) (h : f.sizeText D cfg = .ok d) (ht : tyOf D cfg f.typ = some ty) : ∃ b, sizeTerms D cfg f = some b := by
  unfold Field.sizeText at h
  unfold sizeTerms
  cases hg : f.frequency.generated <;> simp only [hg] at h ⊢
  · obtain ⟨dd, hd, h⟩ := emit_bind h
    obtain ⟨mm, hm, h⟩ := emit_bind h
    obtain ⟨d', hd⟩ := default_exists hd ht
    unfold Field.sizeAddition at hm
    obtain ⟨_, hm, _⟩ := emit_bind hm
    have hnm : f.typ.isMap = false := by rw [← hs.map]; exact gen_not_map (by rw [hg]; decide)
    obtain ⟨x, hx⟩ := size_exists hm hnm (.var .m)
    obtain ⟨y, hy⟩ := size_exists hm hnm (selfDot f.name)
    rw [hd, hx, hy]
    simp only [Option.bind_some]
    cases ho : f.frequency.isOptional
    · cases f.hasPresence <;> exact ⟨_, rfl⟩
    · rw [presence_optional hg hs ho]; exact ⟨_, rfl⟩
  · have hnm : f.typ.isMap = false := by rw [← hs.map]; exact gen_not_map (by rw [hg]; decide)
    cases hp : f.isPacked <;> simp only [hp, Bool.false_eq_true, if_false, if_true] at h ⊢
    · split
      · exact ⟨_, rfl⟩
      · exact ⟨_, rfl⟩
      · rename_i h1 h5
        split at h
        · rename_i e; exact (h1 e).elim
        · rename_i e; exact (h5 e).elim
        · obtain ⟨s, hs', _⟩ := emit_bind h
          obtain ⟨x, hx⟩ := size_exists hs' hnm (.var .s)
          rw [hx]
          exact ⟨_, rfl⟩
    · split at h
      · rename_i e; simp only [e]; exact ⟨_, rfl⟩
      · rename_i e; simp only [e]; exact ⟨_, rfl⟩
      · rename_i h1 h5
        obtain ⟨s, hs', _⟩ := emit_bind h
        obtain ⟨x, hx⟩ := size_exists hs' hnm (.var .s)
        split
        · exact ⟨_, rfl⟩
        · exact ⟨_, rfl⟩
        · rw [hx]; exact ⟨_, rfl⟩
  · have hm := hs.map.symm.trans (gen_map hg)
    cases hf : f.typ <;> rw [hf] at hm <;> try (cases hm; done)
    rename_i k v
    obtain ⟨fk, fv⟩ := entry_flat hs ha hf
    simp only [hf] at h ⊢
    obtain ⟨s, hs', _⟩ := emit_bind h
    simp only [FieldType.getSize] at hs'
    obtain ⟨ks, hk, hs'⟩ := emit_bind hs'
    obtain ⟨vs, hv, hs'⟩ := emit_bind hs'
    obtain ⟨ks, hk⟩ := size_exists hk fk (.var .k)
    obtain ⟨vs, hv⟩ := size_exists hv fv (.var .v)
    unfold entrySizeTree
    rw [hk, hv]
    exact ⟨_, rfl⟩

theorem writeStmt_exists {D : FileDescriptor} {cfg : Config} {f : Field} {d a : Doc} {ty : Ty} (hs : FieldSane f)
    (ha : f.matchArm D = .ok a) (h : f.writeText D cfg = .ok d) (ht : tyOf D cfg f.typ = some ty) : ∃ b, writeStmt D cfg f = some b := by
  unfold Field.writeText at h
  unfold writeStmt
  cases hg : f.frequency.generated <;> simp only [hg] at h ⊢
  · obtain ⟨dd, hd, h⟩ := emit_bind h
    obtain ⟨mm, hm, h⟩ := emit_bind h
    obtain ⟨d', hd⟩ := default_exists hd ht
    unfold Field.getWriteMethod at hm
    obtain ⟨_, hm, _⟩ := emit_bind hm
    have hnm : f.typ.isMap = false := by rw [← hs.map]; exact gen_not_map (by rw [hg]; decide)
    obtain ⟨x, hx⟩ := write_exists hm hnm (unwrapTree f false (.var .m)) f.boxed
    obtain ⟨y, hy⟩ := write_exists hm hnm (unwrapTree f false (selfDot f.name)) f.boxed
    rw [hd, hx, hy]
    simp only [Option.bind_some]
    cases ho : f.frequency.isOptional
    · cases f.hasPresence <;> exact ⟨_, rfl⟩
    · rw [presence_optional hg hs ho]; exact ⟨_, rfl⟩
  · have hnm : f.typ.isMap = false := by rw [← hs.map]; exact gen_not_map (by rw [hg]; decide)
    cases hp : f.isPacked <;> simp only [hp, Bool.false_eq_true, if_false, if_true] at h ⊢
    · obtain ⟨s, hs', _⟩ := emit_bind h
      obtain ⟨x, hx⟩ := write_exists hs' hnm (if f.typ.needToDereference then .deref (.var .s) else .var .s) f.boxed
      rw [hx]
      exact ⟨_, rfl⟩
    · cases hfx : f.typ.isFixedSize <;> simp only [hfx, Bool.false_eq_true, if_false, if_true] at h ⊢
      · obtain ⟨w, hw, h⟩ := emit_bind h
        obtain ⟨s, hs', _⟩ := emit_bind h
        obtain ⟨x, hx⟩ := write_exists hw hnm (.var .m) f.boxed
        obtain ⟨y, hy⟩ := size_exists hs' hnm (.var .m)
        rw [hx, hy]
        exact ⟨_, rfl⟩
      · exact ⟨_, rfl⟩
  · have hm := hs.map.symm.trans (gen_map hg)
    cases hf : f.typ <;> rw [hf] at hm <;> try (cases hm; done)
    rename_i k v
    obtain ⟨fk, fv⟩ := entry_flat hs ha hf
    simp only [hf] at h ⊢
    obtain ⟨s, hs', _⟩ := emit_bind h
    simp only [FieldType.getWrite] at hs'
    obtain ⟨sz, hsz, hs'⟩ := emit_bind hs'
    simp only [FieldType.getSize] at hsz
    obtain ⟨ks, hk, hsz⟩ := emit_bind hsz
    obtain ⟨vs, hv, _⟩ := emit_bind hsz
    obtain ⟨kw, hkw, hs'⟩ := emit_bind hs'
    obtain ⟨vw, hvw, hs'⟩ := emit_bind hs'
    obtain ⟨ks, hk⟩ := size_exists hk fk (.var .k)
    obtain ⟨vs, hv⟩ := size_exists hv fv (.var .v)
    obtain ⟨kw, hkw⟩ := write_exists hkw fk (.var .k) false
    obtain ⟨vw, hvw⟩ := write_exists hvw fv (.var .v) false
    unfold writeMapTree entrySizeTree
    rw [hk, hv, hkw, hvw]
    exact ⟨_, rfl⟩

/-! ## Oneofs -/

theorem oneofMatch_exists {D : FileDescriptor} {cfg : Config} {o : OneOf} {f : Field} {d : Doc} {ty : Ty} (hb : f.boxed = true → ∃ j, f.typ = .message j)
    (h : o.matchArm D f = .ok d) (ht : tyOf D cfg f.typ = some ty) : ∃ b, oneofMatchTree D o f = some b := by
  unfold OneOf.matchArm at h
  obtain ⟨p, hp, _⟩ := emit_bind h
  obtain ⟨e, he⟩ := read_exists hp ht
  unfold oneofMatchTree
  cases hbx : f.boxed
  · simp only [Bool.false_eq_true, if_false, he]; exact ⟨_, rfl⟩
  · obtain ⟨j, hj⟩ := hb hbx
    rw [hj] at he
    simp only [if_true, hj, he]; exact ⟨_, rfl⟩

theorem oneof_not_map {D : FileDescriptor} {o : OneOf} {f : Field} {d : Doc} (h : o.matchArm D f = .ok d) : f.typ.isMap = false := by
  unfold OneOf.matchArm at h
  obtain ⟨p, hp, _⟩ := emit_bind h
  exact read_not_map hp

theorem oneofSize_exists {D : FileDescriptor} {o : OneOf} {f : Field} {d : Doc} (hm : f.typ.isMap = false)
    (h : o.sizeArm D f = .ok d) : ∃ b, oneofSizeTree D o f = some b := by
  unfold OneOf.sizeArm at h
  unfold oneofSizeTree
  simp only at h ⊢
  split at h
  · rename_i hf
    obtain ⟨s, hs, _⟩ := emit_bind h
    obtain ⟨x, hx⟩ := size_exists hs hm (.num 0)
    rw [if_pos hf, hx]; exact ⟨_, rfl⟩
  · rename_i hf
    split at h
    · rename_i hn
      obtain ⟨s, hs, _⟩ := emit_bind h
      obtain ⟨x, hx⟩ := size_exists hs hm (.deref (.var .m))
      rw [if_neg hf, if_pos hn, hx]; exact ⟨_, rfl⟩
    · rename_i hn
      obtain ⟨s, hs, _⟩ := emit_bind h
      obtain ⟨x, hx⟩ := size_exists hs hm (.var .m)
      rw [if_neg hf, if_neg hn, hx]; exact ⟨_, rfl⟩

theorem oneofWrite_exists {D : FileDescriptor} {o : OneOf} {f : Field} {d : Doc} (hm : f.typ.isMap = false)
    (h : o.writeArm D f = .ok d) : ∃ b, oneofWriteTree D o f = some b := by
  unfold OneOf.writeArm at h
  unfold oneofWriteTree
  split at h
  all_goals
    obtain ⟨s, hs, _⟩ := emit_bind h
    obtain ⟨x, hx⟩ := write_exists hs hm (if f.typ.needToDereference || f.boxed then .deref (.var .m) else .var .m) f.boxed
    rw [hx]; exact ⟨_, rfl⟩

theorem emitAll_ok {α : Type} {f : α → Emit Doc} : ∀ {l : List α} {d : Doc}, emitAll f l = .ok d → ∀ a ∈ l, ∃ x, f a = .ok x
  | [], _, _, a, ha => by cases ha
  | b :: l, d, h, a, ha => by
    rw [emitAll] at h
    obtain ⟨x, hx, h⟩ := emit_bind h
    obtain ⟨y, hy, _⟩ := emit_bind h
    cases ha with
    | head => exact ⟨x, hx⟩
    | tail _ ha => exact emitAll_ok hy a ha

theorem mapM_exists {α β : Type} {t : α → Option β} : ∀ {l : List α}, (∀ a ∈ l, ∃ b, t a = some b) → ∃ bs, l.mapM t = some bs
  | [], _ => ⟨[], rfl⟩
  | a :: l, h => by
    obtain ⟨b, hb⟩ := h a (by simp)
    obtain ⟨bs, hbs⟩ := mapM_exists (l := l) fun x hx => h x (by simp [hx])
    exact ⟨b :: bs, by rw [List.mapM_cons, hb, hbs]; rfl⟩

/-- What pb-rs ensures about a message (C65, C49). -/
structure MessageSane (m : Message) : Prop where
  fields : ∀ f ∈ m.fields, FieldSane f
  oneofs : ∀ o ∈ m.oneofs, ∀ f ∈ o.fields, f.boxed = true → ∃ j, f.typ = .message j

theorem visible_iff {cfg : Config} {f : Field} (h : f.visible cfg = true) : (f.deprecated && !cfg.addDeprecatedFields) = false := by
  unfold Field.visible at h
  revert h
  cases f.deprecated <;> cases cfg.addDeprecatedFields <;> decide

/-- Where the struct and the functions of a message are printed, their trees exist. -/
theorem structDef_exists {D : FileDescriptor} {cfg : Config} {m : Message} {a b c : Doc} (hs : MessageSane m)
    (hT : ∀ o ∈ m.oneofs, ∀ f ∈ o.shown cfg, ∃ t, tyOf D cfg f.typ = some t)
    (ha : m.writeDefinition D cfg = .ok a) (hb : m.writeImplMessageRead D cfg = .ok b) (hc : m.writeImplMessageWrite D cfg = .ok c) :
    ∃ s, structDef D cfg m = some s := by
  cases hu : m.isUnit
  · unfold Message.writeDefinition at ha
    unfold Message.writeImplMessageRead at hb
    unfold Message.writeImplMessageWrite at hc
    simp only [hu, Bool.false_eq_true, if_false] at ha hb hc
    obtain ⟨l, hl, ha⟩ := emit_bind ha
    obtain ⟨_, hfs, ha⟩ := emit_bind ha
    obtain ⟨_, hos, _⟩ := emit_bind ha
    obtain ⟨_, _, hb⟩ := emit_bind hb
    obtain ⟨_, hrf, hb⟩ := emit_bind hb
    obtain ⟨_, hro, _⟩ := emit_bind hb
    obtain ⟨_, _, hc⟩ := emit_bind hc
    obtain ⟨_, hsz, hc⟩ := emit_bind hc
    obtain ⟨_, hwr, hc⟩ := emit_bind hc
    unfold Message.writeGetSize at hsz
    obtain ⟨_, hsf, hsz⟩ := emit_bind hsz
    obtain ⟨_, hso, _⟩ := emit_bind hsz
    unfold Message.writeWriteMessage at hwr
    obtain ⟨_, hwf, hwr⟩ := emit_bind hwr
    obtain ⟨_, hwo, _⟩ := emit_bind hwr
    have field : ∀ f ∈ shownFields cfg m, FieldSane f ∧ (∃ t, tyOf D cfg f.typ = some t) ∧ (∃ d, f.matchArm D = .ok d) ∧
        (∃ d, f.sizeText D cfg = .ok d) ∧ ∃ d, f.writeText D cfg = .ok d := by
      intro f hf
      obtain ⟨hf, hv⟩ := List.mem_filter.mp hf
      have hd := visible_iff hv
      refine ⟨hs.fields f hf, ?_, ?_, ?_, ?_⟩
      · obtain ⟨x, hx⟩ := emitAll_ok hfs f hf
        unfold Field.writeDefinition at hx
        simp only at hx
        cases hdp : f.deprecated <;> simp only [hdp, Bool.false_eq_true, if_false, if_true] at hx
        · obtain ⟨t, ht, _⟩ := emit_bind hx
          exact fieldTy_exists ht
        · rw [hdp] at hd
          have : cfg.addDeprecatedFields = true := by cases h : cfg.addDeprecatedFields <;> rw [h] at hd <;> first | rfl | (cases hd; done)
          rw [if_pos this] at hx
          obtain ⟨t, ht, _⟩ := emit_bind hx
          obtain ⟨t, ht, _⟩ := emit_bind ht
          exact fieldTy_exists ht
      · obtain ⟨x, hx⟩ := emitAll_ok hrf f hf
        unfold Field.writeMatchTag at hx
        rw [hd] at hx
        obtain ⟨t, ht, _⟩ := emit_bind hx
        exact ⟨t, ht⟩
      · obtain ⟨x, hx⟩ := emitAll_ok hsf f hf
        unfold Field.writeGetSize at hx
        rw [hd] at hx
        obtain ⟨t, ht, _⟩ := emit_bind hx
        exact ⟨t, ht⟩
      · obtain ⟨x, hx⟩ := emitAll_ok hwf f hf
        unfold Field.writeWrite at hx
        rw [hd] at hx
        obtain ⟨t, ht, _⟩ := emit_bind hx
        exact ⟨t, ht⟩
    have variant : ∀ o ∈ m.oneofs, (∃ l, o.hasLifetime D cfg = some l) ∧ (∀ f ∈ o.shown cfg, ∃ d, o.matchArm D f = .ok d) ∧
        (∀ f ∈ o.shown cfg, ∃ d, o.sizeArm D f = .ok d) ∧ (∀ f ∈ o.shown cfg, ∃ d, o.writeArm D f = .ok d) := by
      intro o ho
      refine ⟨?_, ?_, ?_, ?_⟩
      · obtain ⟨x, hx⟩ := emitAll_ok hos o ho
        unfold OneOf.writeMessageDefinition at hx
        obtain ⟨l, hl, _⟩ := emit_bind hx
        exact ⟨l, orPanic_ok hl⟩
      · obtain ⟨x, hx⟩ := emitAll_ok hro o ho
        exact emitAll_ok hx
      · obtain ⟨x, hx⟩ := emitAll_ok hso o ho
        unfold OneOf.writeGetSize at hx
        obtain ⟨l, hl, _⟩ := emit_bind hx
        exact emitAll_ok hl
      · obtain ⟨x, hx⟩ := emitAll_ok hwo o ho
        unfold OneOf.writeWrite at hx
        obtain ⟨l, hl, _⟩ := emit_bind hx
        exact emitAll_ok hl
    have h1 : ∃ x, structFields D cfg m = some x := by
      obtain ⟨fs, h1⟩ := mapM_exists (l := shownFields cfg m) (t := fun f => (fieldTy D cfg f).map fun t => (f.name, t)) fun f hf => by
        obtain ⟨_, ⟨t, ht⟩, _⟩ := field f hf
        exact ⟨_, by unfold fieldTy; rw [ht]; rfl⟩
      obtain ⟨os, h2⟩ := mapM_exists (l := m.oneofs) (t := fun o => (o.hasLifetime D cfg).map fun l => (o.name, Ty.adt (oneofPath D o) l)) fun o ho => by
        obtain ⟨⟨l, hl⟩, _⟩ := variant o ho
        exact ⟨_, by rw [hl]; rfl⟩
      exact ⟨_, by unfold structFields; rw [h1, h2]; rfl⟩
    have h2 : ∃ x, sizeBody D cfg m = some x := by
      obtain ⟨fs, h1⟩ := mapM_exists (l := shownFields cfg m) (t := sizeTerms D cfg) fun f hf => by
        obtain ⟨h1, ⟨t, ht⟩, ⟨_, h2⟩, ⟨_, h3⟩, _⟩ := field f hf
        exact sizeTerms_exists h1 h2 h3 ht
      obtain ⟨os, h2⟩ := mapM_exists (l := m.oneofs) (t := oneofSize D cfg) fun o ho => by
        obtain ⟨_, h1, h2, _⟩ := variant o ho
        obtain ⟨as, has⟩ := mapM_exists (l := o.shown cfg) (t := oneofSizeTree D o) fun f hf => by
          obtain ⟨_, h1⟩ := h1 f hf
          obtain ⟨_, h2⟩ := h2 f hf
          exact oneofSize_exists (oneof_not_map h1) h2
        exact ⟨_, by unfold oneofSize; rw [has]; rfl⟩
      exact ⟨_, by unfold sizeBody; rw [h1, h2]; rfl⟩
    have h3 : ∃ x, writeBody D cfg m = some x := by
      obtain ⟨fs, h1⟩ := mapM_exists (l := shownFields cfg m) (t := writeStmt D cfg) fun f hf => by
        obtain ⟨h1, ⟨t, ht⟩, ⟨_, h2⟩, _, _, h3⟩ := field f hf
        exact writeStmt_exists h1 h2 h3 ht
      obtain ⟨os, h2⟩ := mapM_exists (l := m.oneofs) (t := oneofWrite D cfg) fun o ho => by
        obtain ⟨_, h1, _, h2⟩ := variant o ho
        obtain ⟨as, has⟩ := mapM_exists (l := o.shown cfg) (t := oneofWriteTree D o) fun f hf => by
          obtain ⟨_, h1⟩ := h1 f hf
          obtain ⟨_, h2⟩ := h2 f hf
          exact oneofWrite_exists (oneof_not_map h1) h2
        exact ⟨_, by unfold oneofWrite; rw [has]; rfl⟩
      exact ⟨_, by unfold writeBody; rw [h1, h2]; rfl⟩
    have h4 : ∃ x, readBody D cfg m = some x := by
      obtain ⟨fs, h1⟩ := mapM_exists (l := shownFields cfg m) (t := fieldArm D cfg) fun f hf => by
        obtain ⟨h1, ⟨t, ht⟩, ⟨_, h2⟩, _, _⟩ := field f hf
        obtain ⟨b, hb⟩ := match_exists h1 h2 ht
        exact ⟨_, by unfold fieldArm; rw [hb]; rfl⟩
      obtain ⟨os, h2⟩ := mapM_exists (l := m.oneofs) (t := fun (o : OneOf) => (o.shown cfg).mapM (oneofMatchTree D o)) fun o ho => by
        obtain ⟨_, h1, _⟩ := variant o ho
        refine mapM_exists (l := o.shown cfg) (t := oneofMatchTree D o) fun f hf => ?_
        obtain ⟨_, h2⟩ := h1 f hf
        obtain ⟨t, ht⟩ := hT o ho f hf
        exact oneofMatch_exists (hs.oneofs o ho f (List.mem_filter.mp hf).1) h2 ht
      exact ⟨_, by unfold readBody; rw [h1, h2]; rfl⟩
    have h5 : ∃ x, defaultFields D cfg m = some x := by
      obtain ⟨fs, h1⟩ := mapM_exists (l := shownFields cfg m) (t := fun f => (defaultTree D cfg f).map fun e => (f.name, e)) fun f hf => by
        obtain ⟨h1, ⟨t, ht⟩, _, ⟨_, h2⟩, _⟩ := field f hf
        have : ∃ d, f.defaultText D cfg = .ok d := by
          unfold Field.sizeText at h2
          cases hg : f.frequency.generated <;> simp only [hg] at h2
          · obtain ⟨d, hd, _⟩ := emit_bind h2
            exact ⟨d, hd⟩
          · unfold Field.defaultText; simp only [hg]; split <;> exact ⟨_, rfl⟩
          · unfold Field.defaultText; simp only [hg]; exact ⟨_, rfl⟩
        obtain ⟨d, hd⟩ := this
        obtain ⟨e, he⟩ := default_exists hd ht
        exact ⟨_, by rw [he]; rfl⟩
      exact ⟨_, by unfold defaultFields; rw [h1]; rfl⟩
    obtain ⟨x1, h1⟩ := h1
    obtain ⟨x2, h2⟩ := h2
    obtain ⟨x3, h3⟩ := h3
    obtain ⟨x4, h4⟩ := h4
    obtain ⟨x5, h5⟩ := h5
    exact ⟨_, by unfold structDef; rw [h1, h2, h3, h4, h5]; rfl⟩
  · obtain ⟨_, fields, oneofs, _, _, _, _, ms, _, _, _⟩ := m
    unfold Message.isUnit at hu
    simp only [Bool.and_eq_true, List.isEmpty_iff] at hu
    obtain ⟨⟨h1, h2⟩, _⟩ := hu
    subst h1 h2
    exact ⟨_, rfl⟩

end QP.Rust
