import Verif.Proofs.TreesExist
import Verif.Spec.Printed
set_option linter.unusedVariables false
/-!
# The printed file has the generated program
-/

namespace QP.Rust
open QP.Pbrs

theorem str_append (a b : Doc) : (a ++ b).str = a.str ++ b.str := a.front _

theorem Has.refl (a : Doc) : Doc.Has a a := List.infix_refl _

theorem Has.left {a p : Doc} (h : Doc.Has a p) (b : Doc) : Doc.Has (a ++ b) p := by
  unfold Doc.Has at *
  rw [str_append]
  obtain ⟨x, y, h⟩ := h
  exact ⟨x, y ++ b.str, by rw [← h]; simp [List.append_assoc]⟩

theorem Has.right {b p : Doc} (a : Doc) (h : Doc.Has b p) : Doc.Has (a ++ b) p := by
  unfold Doc.Has at *
  rw [str_append]
  obtain ⟨x, y, h⟩ := h
  exact ⟨a.str ++ x, y, by rw [← h]; simp [List.append_assoc]⟩

theorem Has.trans {a b c : Doc} (h : Doc.Has a b) (k : Doc.Has b c) : Doc.Has a c := List.IsInfix.trans k h

theorem emitAll_has {α : Type} {f : α → Emit Doc} : ∀ {l : List α} {d : Doc}, emitAll f l = .ok d → ∀ a ∈ l, ∃ x, f a = .ok x ∧ Doc.Has d x
  | [], _, _, a, ha => by cases ha
  | b :: l, d, h, a, ha => by
    rw [emitAll] at h
    obtain ⟨x, hx, h⟩ := emit_bind h
    obtain ⟨y, hy, h⟩ := emit_bind h
    cases h
    cases ha with
    | head => exact ⟨x, hx, Has.left (Has.refl x) _⟩
    | tail _ ha =>
      obtain ⟨z, hz, h⟩ := emitAll_has hy a ha
      exact ⟨z, hz, Has.right _ h⟩

/-! ## The printed declarations -/

/-- The lines of the fields. -/
theorem fields_text {D : FileDescriptor} {cfg : Config} : ∀ (l : List Field) {gs : List (Str × Ty)},
    (l.filter (·.visible cfg)).mapM (fun f => (fieldTy D cfg f).map fun t => (f.name, t)) = some gs →
    emitAll (Field.writeDefinition D cfg) l =
      .ok (Doc.concat (List.zipWith (fun d (f : Str × Ty) => fieldLine d f.1 f.2) ((l.filter (·.visible cfg)).map (·.deprecated)) gs))
  | [], gs, h => by cases h; rfl
  | f :: l, gs, h => by
    cases hv : f.visible cfg
    · rw [List.filter_cons_of_neg (by rw [hv]; decide)] at h ⊢
      rw [emitAll, fields_text l h]
      have hd : f.deprecated = true ∧ cfg.addDeprecatedFields = false := by
        unfold Field.visible at hv
        revert hv
        cases f.deprecated <;> cases cfg.addDeprecatedFields <;> decide
      unfold Field.writeDefinition
      rw [hd.1, hd.2]
      rfl
    · rw [List.filter_cons_of_pos hv, List.mapM_cons] at h
      rw [List.filter_cons_of_pos hv]
      obtain ⟨b, hb, h⟩ := Option.bind_eq_some_iff.mp h
      obtain ⟨bs, hbs, h⟩ := Option.bind_eq_some_iff.mp h
      cases h
      obtain ⟨t, ht, rfl⟩ := Option.map_eq_some_iff.mp hb
      rw [emitAll, fields_text l hbs]
      unfold Field.writeDefinition
      rw [fieldTy_text ht]
      have hd := visible_iff hv
      cases hdp : f.deprecated
      · rw [List.map_cons, hdp]; rfl
      · have : cfg.addDeprecatedFields = true := by rw [hdp] at hd; cases h : cfg.addDeprecatedFields <;> rw [h] at hd <;> first | rfl | (cases hd; done)
        rw [List.map_cons, hdp, this]; rfl

theorem oneofs_text {D : FileDescriptor} {cfg : Config} {l : List OneOf} {os : List (Str × Ty)}
    (h : l.mapM (fun (o : OneOf) => (o.hasLifetime D cfg).map fun l => (o.name, Ty.adt (oneofPath D o) l)) = some os) :
    emitAll (OneOf.writeMessageDefinition D cfg) l = .ok (Doc.concat (os.map fun f => ln d!"    pub {f.1}: {f.2.doc},")) := by
  refine emitAll_trees (fun o e he => ?_) h
  obtain ⟨l, hl, rfl⟩ := Option.map_eq_some_iff.mp he
  unfold OneOf.writeMessageDefinition
  rw [orPanic_some hl]
  cases l
  · show Except.ok _ = Except.ok (ln d!"    pub {o.name}: {pathDoc (oneofPath D o)},")
    rw [oneof_path]
    rfl
  · show Except.ok _ = Except.ok (ln d!"    pub {o.name}: {pathDoc (oneofPath D o)}<'a>,")
    rw [oneof_path]
    rfl

theorem zipWith_false {α : Type} (g : α → Doc) (h : Bool → α → Doc) (hg : ∀ a, h false a = g a) : ∀ (os : List α) {β : Type} (l : List β), l.length = os.length →
    List.zipWith h (l.map fun _ => false) os = os.map g
  | [], _, [], _ => rfl
  | o :: os, _, b :: l, hl => by
    simp only [List.map_cons, List.zipWith_cons_cons, hg]
    rw [zipWith_false g h hg os l (by simpa using hl)]

theorem mapM_len {α β : Type} {t : α → Option β} : ∀ {l : List α} {bs : List β}, l.mapM t = some bs → bs.length = l.length
  | [], bs, h => by cases h; rfl
  | a :: l, bs, h => by
    rw [List.mapM_cons] at h
    obtain ⟨b, hb, h⟩ := Option.bind_eq_some_iff.mp h
    obtain ⟨bs', hbs, h⟩ := Option.bind_eq_some_iff.mp h
    cases h
    simp [mapM_len hbs]

/-- The declaration of a struct. -/
theorem definition_has {D : FileDescriptor} {cfg : Config} {m : Message} {fs : List (Str × Ty)} {d : Doc} {l : Bool} (hu : m.isUnit = false)
    (h : m.writeDefinition D cfg = .ok d) (hl : structDeclares D cfg m.index = some l) (hf : structFields D cfg m = some fs) :
    Doc.Has d (structText m.name l (deprecations cfg m) fs) := by
  unfold structFields at hf
  obtain ⟨gs, hgs, hf⟩ := Option.bind_eq_some_iff.mp hf
  obtain ⟨os, hos, rfl⟩ := Option.map_eq_some_iff.mp hf
  unfold Message.writeDefinition at h
  simp only [hu, Bool.false_eq_true, if_false] at h
  obtain ⟨l', hl', h⟩ := emit_bind h
  have : l' = l := by have := orPanic_ok hl'; rw [hl] at this; cases this; rfl
  subst this
  obtain ⟨a, ha, h⟩ := emit_bind h
  obtain ⟨b, hb, h⟩ := emit_bind h
  have e1 := fields_text m.fields hgs
  rw [ha] at e1
  have e2 := oneofs_text hos
  rw [hb] at e2
  cases e1
  cases e2
  have e3 : Doc.concat (List.zipWith (fun d (f : Str × Ty) => fieldLine d f.1 f.2) (deprecations cfg m) (gs ++ os)) =
      Doc.concat (List.zipWith (fun d (f : Str × Ty) => fieldLine d f.1 f.2) ((m.fields.filter (·.visible cfg)).map (·.deprecated)) gs) ++
        Doc.concat (os.map fun f => ln d!"    pub {f.1}: {f.2.doc},") := by
    unfold deprecations shownFields
    rw [List.zipWith_append (by rw [List.length_map]; exact (mapM_len hgs).symm),
      zipWith_false (fun f : Str × Ty => ln d!"    pub {f.1}: {f.2.doc},") (fun d f => fieldLine d f.1 f.2) (fun _ => rfl) os m.oneofs (mapM_len hos).symm,
      concat_append]
  unfold structText
  rw [e3]
  cases h
  simp only [Doc.append_assoc]
  cases l'
  · exact Has.right _ (Has.right _ (Has.right _ (Has.refl _)))
  · exact Has.right _ (Has.right _ (Has.right _ (Has.refl _)))

theorem variants_text {D : FileDescriptor} {cfg : Config} : ∀ (l : List Field) {gs : List (Str × Ty)},
    (l.filter (fun f => !f.deprecated || cfg.addDeprecatedFields)).mapM (fun f => (tyOf D cfg f.typ).map fun t => (f.name, if f.boxed then Ty.box t else t)) = some gs →
    emitAll (OneOf.variant D cfg) l =
      .ok (Doc.concat (List.zipWith (fun d (v : Str × Ty) => (if d then ln d!"    #[deprecated]" else .empty) ++ ln d!"    {v.1}({v.2.doc}),")
        ((l.filter (fun f => !f.deprecated || cfg.addDeprecatedFields)).map (·.deprecated)) gs))
  | [], gs, h => by cases h; rfl
  | f :: l, gs, h => by
    cases hv : (!f.deprecated || cfg.addDeprecatedFields)
    · rw [List.filter_cons_of_neg (by rw [hv]; decide)] at h ⊢
      rw [emitAll, variants_text l h]
      have hd : (f.deprecated && !cfg.addDeprecatedFields) = true := by
        revert hv
        cases f.deprecated <;> cases cfg.addDeprecatedFields <;> decide
      unfold OneOf.variant
      rw [hd]
      rfl
    · rw [List.filter_cons_of_pos (p := fun f : Field => !f.deprecated || cfg.addDeprecatedFields) hv, List.mapM_cons] at h
      rw [List.filter_cons_of_pos (p := fun f : Field => !f.deprecated || cfg.addDeprecatedFields) hv]
      obtain ⟨b, hb, h⟩ := Option.bind_eq_some_iff.mp h
      obtain ⟨bs, hbs, h⟩ := Option.bind_eq_some_iff.mp h
      cases h
      obtain ⟨t, ht, rfl⟩ := Option.map_eq_some_iff.mp hb
      rw [emitAll, variants_text l hbs]
      have hd : (f.deprecated && !cfg.addDeprecatedFields) = false := by
        revert hv
        cases f.deprecated <;> cases cfg.addDeprecatedFields <;> decide
      unfold OneOf.variant
      rw [hd, ty_text ht]
      cases hdp : f.deprecated <;> cases hbx : f.boxed <;> (rw [List.map_cons, hdp]; rfl)

/-- The enum of a oneof. -/
theorem oneof_has {D : FileDescriptor} {cfg : Config} {o : OneOf} {d : Doc} (h : o.write D cfg = .ok d) :
    ∃ l vs, o.hasLifetime D cfg = some l ∧ variantTys D cfg o = some vs ∧ HasOneof d o.name l ((o.shown cfg).map (·.deprecated)) vs := by
  unfold OneOf.write at h
  obtain ⟨a, ha, h⟩ := emit_bind h
  obtain ⟨b, hb, h⟩ := emit_bind h
  cases h
  unfold OneOf.writeDefinition at ha
  obtain ⟨l, hl, ha⟩ := emit_bind ha
  obtain ⟨c, hc, ha⟩ := emit_bind ha
  unfold OneOf.writeImplDefault at hb
  rw [hl] at hb
  have : ∃ vs, variantTys D cfg o = some vs := by
    refine mapM_exists fun f hf => ?_
    obtain ⟨hf, hv⟩ := List.mem_filter.mp hf
    obtain ⟨x, hx⟩ := emitAll_ok hc f hf
    unfold OneOf.variant at hx
    have hd : (f.deprecated && !cfg.addDeprecatedFields) = false := by
      revert hv
      cases f.deprecated <;> cases cfg.addDeprecatedFields <;> decide
    rw [hd] at hx
    obtain ⟨t, ht, _⟩ := emit_bind hx
    obtain ⟨t, ht⟩ := ty_exists ht
    exact ⟨_, by rw [ht]; rfl⟩
  obtain ⟨vs, hvs⟩ := this
  refine ⟨l, vs, orPanic_ok hl, hvs, ?_, ?_⟩
  · have e := variants_text o.fields hvs
    rw [hc] at e
    cases e
    cases ha
    cases l
    · exact Has.left (Has.left (Has.right _ (Has.refl _)) _) _
    · exact Has.left (Has.left (Has.right _ (Has.refl _)) _) _
  · cases hb
    cases l
    · exact Has.right _ (Has.refl _)
    · exact Has.right _ (Has.refl _)

/-! ## Messages and files -/

theorem emitIf_ok {b : Bool} {d : Emit Doc} {x : Doc} (h : emitIf b d = .ok x) (hb : b = true) : d = .ok x := by
  subst hb; exact h

theorem writeAll_has {D : FileDescriptor} {cfg : Config} : ∀ {l : List Message} {d : Doc}, Message.writeAll D cfg l = .ok d →
    ∀ m ∈ l, ∃ x, m.write D cfg = .ok x ∧ Doc.Has d x
  | [], _, _, a, ha => by cases ha
  | b :: l, d, h, a, ha => by
    rw [Message.writeAll] at h
    obtain ⟨x, hx, h⟩ := emit_bind h
    obtain ⟨y, hy, h⟩ := emit_bind h
    cases h
    cases ha with
    | head => exact ⟨x, hx, Has.left (Has.refl x) _⟩
    | tail _ ha =>
      obtain ⟨z, hz, h⟩ := writeAll_has hy a ha
      exact ⟨z, hz, Has.right _ h⟩

/-- What printing a message prints. -/
theorem message_parts {D : FileDescriptor} {cfg : Config} {m : Message} {d : Doc} (h : m.write D cfg = .ok d) :
    (∃ a, m.writeDefinition D cfg = .ok a ∧ Doc.Has d a) ∧ (∃ a, m.writeImplMessageRead D cfg = .ok a ∧ Doc.Has d a) ∧
    (∃ a, m.writeImplMessageWrite D cfg = .ok a ∧ Doc.Has d a) ∧
    (m.mustGenerateImplDefault D cfg = true → ∃ a, m.writeImplDefault D cfg = .ok a ∧ Doc.Has d a) ∧
    (∀ m' ∈ m.messages, ∃ a, m'.write D cfg = .ok a ∧ Doc.Has d a) ∧ (∀ e ∈ m.enums, ∃ a, e.write = .ok a ∧ Doc.Has d a) ∧
    (∀ o ∈ m.oneofs, ∃ a, o.write D cfg = .ok a ∧ Doc.Has d a) := by
  obtain ⟨name, fields, oneofs, nums, names, imported, pkg, messages, enums, module, index⟩ := m
  rw [Message.write] at h
  obtain ⟨x1, h1, h⟩ := emit_bind h
  obtain ⟨x2, h2, h⟩ := emit_bind h
  obtain ⟨x3, h3, h⟩ := emit_bind h
  obtain ⟨x4, h4, h⟩ := emit_bind h
  obtain ⟨x5, h5, h⟩ := emit_bind h
  obtain ⟨x6, h6, h⟩ := emit_bind h
  obtain ⟨x7, h7, h⟩ := emit_bind h
  obtain ⟨x8, h8, h⟩ := emit_bind h
  obtain ⟨x9, h9, h⟩ := emit_bind h
  cases h
  simp only [Doc.append_assoc]
  have inner : ∀ {p : Doc}, Doc.Has x9 p → Doc.Has (Doc.nl ++ (x1 ++ (Doc.nl ++ (x2 ++ (x3 ++ (x4 ++ (x5 ++ (Doc.nl ++ (x6 ++ (x7 ++ (x8 ++ x9))))))))))) p :=
    fun h => Has.right _ (Has.right _ (Has.right _ (Has.right _ (Has.right _ (Has.right _ (Has.right _ (Has.right _ (Has.right _
      (Has.right _ (Has.right _ h))))))))))
  refine ⟨⟨x1, h1, ?_⟩, ⟨x5, h5, ?_⟩, ⟨x6, h6, ?_⟩, fun hd => ?_, fun m' hm => ?_, fun e he => ?_, fun o ho => ?_⟩
  · exact Has.right _ (Has.left (Has.refl _) _)
  · exact Has.right _ (Has.right _ (Has.right _ (Has.right _ (Has.right _ (Has.right _ (Has.left (Has.refl _) _))))))
  · exact Has.right _ (Has.right _ (Has.right _ (Has.right _ (Has.right _ (Has.right _ (Has.right _ (Has.right _ (Has.left (Has.refl _) _))))))))
  · have := emitIf_ok h4 hd
    obtain ⟨y, k, this⟩ := emit_bind this
    cases this
    exact ⟨y, k, Has.right _ (Has.right _ (Has.right _ (Has.right _ (Has.right _ (Has.left (Has.left (Has.refl _) _) _)))))⟩
  · have := emitIf_ok h9 (by cases messages <;> first | (cases hm; done) | rfl)
    obtain ⟨y1, k1, this⟩ := emit_bind this
    obtain ⟨y2, k2, this⟩ := emit_bind this
    obtain ⟨y3, k3, this⟩ := emit_bind this
    obtain ⟨y4, k4, this⟩ := emit_bind this
    cases this
    obtain ⟨z, hz, hh⟩ := writeAll_has k2 m' hm
    refine ⟨z, hz, inner ?_⟩
    simp only [Doc.append_assoc]
    exact Has.right _ (Has.right _ (Has.right _ (Has.right _ (Has.right _ (Has.left hh _)))))
  · have := emitIf_ok h9 (by cases enums <;> first | (cases he; done) | (simp; done))
    obtain ⟨y1, k1, this⟩ := emit_bind this
    obtain ⟨y2, k2, this⟩ := emit_bind this
    obtain ⟨y3, k3, this⟩ := emit_bind this
    obtain ⟨y4, k4, this⟩ := emit_bind this
    cases this
    obtain ⟨z, hz, hh⟩ := emitAll_has k3 e he
    refine ⟨z, hz, inner ?_⟩
    simp only [Doc.append_assoc]
    exact Has.right _ (Has.right _ (Has.right _ (Has.right _ (Has.right _ (Has.right _ (Has.left hh _))))))
  · have := emitIf_ok h9 (by cases oneofs <;> first | (cases ho; done) | (simp; done))
    obtain ⟨y1, k1, this⟩ := emit_bind this
    obtain ⟨y2, k2, this⟩ := emit_bind this
    obtain ⟨y3, k3, this⟩ := emit_bind this
    obtain ⟨y4, k4, this⟩ := emit_bind this
    cases this
    obtain ⟨z, hz, hh⟩ := emitAll_has k4 o ho
    refine ⟨z, hz, inner ?_⟩
    simp only [Doc.append_assoc]
    exact Has.right _ (Has.right _ (Has.right _ (Has.right _ (Has.right _ (Has.right _ (Has.right _ (Has.left hh _)))))))

theorem lt_false (n : Str) : d!"{n}{lt false}" = d!"{n}" := rfl

/-- A printed message is a struct with the functions of its tree. -/
theorem message_has {D : FileDescriptor} {cfg : Config} {m : Message} {d : Doc} (hs : MessageSane m) (h : m.write D cfg = .ok d) :
    ∃ s l, structDef D cfg m = some s ∧ (m.isUnit = false → structDeclares D cfg m.index = some l) ∧
      HasStruct d m.name m.isUnit l (deprecations cfg m) s ∧
      ∀ o ∈ m.oneofs, ∃ l vs, o.hasLifetime D cfg = some l ∧ variantTys D cfg o = some vs ∧
        HasOneof d o.name l ((o.shown cfg).map (·.deprecated)) vs := by
  obtain ⟨⟨a, ha, hda⟩, ⟨b, hb, hdb⟩, ⟨c, hc, hdc⟩, hdef, _, _, hon⟩ := message_parts h
  have ones : ∀ o ∈ m.oneofs, ∃ l vs, o.hasLifetime D cfg = some l ∧ variantTys D cfg o = some vs ∧
      HasOneof d o.name l ((o.shown cfg).map (·.deprecated)) vs := by
    intro o ho
    obtain ⟨x, hx, hdx⟩ := hon o ho
    obtain ⟨l, vs, h1, h2, h3⟩ := oneof_has hx
    exact ⟨l, vs, h1, h2, Has.trans hdx h3.enum, Has.trans hdx h3.default⟩
  have hT : ∀ o ∈ m.oneofs, ∀ f ∈ o.shown cfg, ∃ t, tyOf D cfg f.typ = some t := by
    intro o ho f hf
    obtain ⟨_, vs, _, h2, _⟩ := ones o ho
    have : ∀ {l : List Field} {vs : List (Str × Ty)}, l.mapM (fun f => (tyOf D cfg f.typ).map fun t => (f.name, if f.boxed then Ty.box t else t)) = some vs →
        ∀ f ∈ l, ∃ t, tyOf D cfg f.typ = some t := by
      intro l
      induction l with
      | nil => intro vs _ f hf; cases hf
      | cons g l ih =>
        intro vs h f hf
        rw [List.mapM_cons] at h
        obtain ⟨b, hb, h⟩ := Option.bind_eq_some_iff.mp h
        obtain ⟨bs, hbs, h⟩ := Option.bind_eq_some_iff.mp h
        cases hf with
        | head => obtain ⟨t, ht, _⟩ := Option.map_eq_some_iff.mp hb; exact ⟨t, ht⟩
        | tail _ hf => exact ih hbs f hf
    exact this h2 f hf
  obtain ⟨s, hsd⟩ := structDef_exists hs hT ha hb hc
  have hsd' := hsd
  unfold structDef at hsd'
  obtain ⟨fs, hfs, hsd'⟩ := Option.bind_eq_some_iff.mp hsd'
  obtain ⟨size, hsize, hsd'⟩ := Option.bind_eq_some_iff.mp hsd'
  obtain ⟨wb, hwb, hsd'⟩ := Option.bind_eq_some_iff.mp hsd'
  obtain ⟨rb, hrb, hsd'⟩ := Option.bind_eq_some_iff.mp hsd'
  obtain ⟨db, hdb', rfl⟩ := Option.map_eq_some_iff.mp hsd'
  cases hu : m.isUnit
  · have hl : ∃ l, structDeclares D cfg m.index = some l := by
      have := ha
      unfold Message.writeDefinition at this
      simp only [hu, Bool.false_eq_true, if_false] at this
      obtain ⟨l, hl, _⟩ := emit_bind this
      exact ⟨l, orPanic_ok hl⟩
    obtain ⟨l, hl⟩ := hl
    refine ⟨_, l, hsd, fun _ => hl, ⟨?_, ?_, ?_, ?_, ?_⟩, ones⟩
    · exact Has.trans hda (definition_has hu ha hl hfs)
    · intro es he
      simp only [hu] at he
      split at he
      · rename_i hg
        cases he
        obtain ⟨x, hx, hdx⟩ := hdef hg
        rw [default_body_text hu hl hdb'] at hx
        cases hx
        cases l <;> exact hdx
      · cases he
    · intro b' w' hb' hw'
      simp only [hu, Bool.false_eq_true, if_false, Option.some.injEq] at hb' hw'
      subst hb' hw'
      unfold Message.writeImplMessageWrite at hc
      have hl' : m.declaresLifetime D cfg = .ok l := orPanic_some hl
      rw [hu, hl', size_body_text hsize, write_body_text hwb] at hc
      cases hc
      cases l <;> exact hdc
    · intro hn _
      simp only [hu, Bool.false_eq_true, if_false] at hn
      cases hn
    · rw [read_body_text hu hl hrb] at hb
      cases hb
      have : (if m.isUnit then unitReadBody else rb) = rb := by rw [hu]; rfl
      simp only [this, Bool.false_eq_true, if_false]
      cases l <;> exact hdb
  · refine ⟨_, false, hsd, (fun h => by cases h), ⟨?_, ?_, ?_, ?_, ?_⟩, ones⟩
    · unfold Message.writeDefinition at ha
      simp only [hu, if_true] at ha
      cases ha
      exact Has.trans hda (Has.right _ (Has.refl _))
    · intro es he
      have : m.mustGenerateImplDefault D cfg = false := by
        obtain ⟨_, fields, oneofs, _, _, _, _, ms, _, _, _⟩ := m
        unfold Message.isUnit at hu
        simp only [Bool.and_eq_true, List.isEmpty_iff] at hu
        obtain ⟨⟨h1, h2⟩, _⟩ := hu
        subst h1
        rfl
      simp only [this, Bool.false_eq_true, if_false] at he
      cases he
    · intro b' w' hb'
      simp only [hu, if_true] at hb'
      cases hb'
    · intro _ _
      unfold Message.writeImplMessageWrite at hc
      rw [hu] at hc
      cases hc
      exact hdc
    · rw [unit_body_text hu] at hb
      cases hb
      have : (if m.isUnit then unitReadBody else rb) = unitReadBody := by rw [hu]; rfl
      simp only [this, if_true]
      exact hdb

/-- A message inside a printed message is printed. -/
theorem descend_has {D : FileDescriptor} {cfg : Config} : ∀ {idx : List Nat} {m m' : Message} {d : Doc}, m.write D cfg = .ok d →
    m.descend idx = some m' → ∃ d', m'.write D cfg = .ok d' ∧ Doc.Has d d'
  | [], m, m', d, h, hm => by cases hm; exact ⟨d, h, Has.refl d⟩
  | i :: is, m, m', d, h, hm => by
    rw [Message.descend] at hm
    obtain ⟨x, hx, hm⟩ := Option.bind_eq_some_iff.mp hm
    obtain ⟨_, _, _, _, hms, _⟩ := message_parts h
    obtain ⟨dx, hdx, hh⟩ := hms x (List.mem_of_getElem? hx)
    obtain ⟨d', hd', hh'⟩ := descend_has hdx hm
    exact ⟨d', hd', Has.trans hh hh'⟩

/-- The messages of the file are printed, with those declared in them. -/
theorem file_has {D : FileDescriptor} {cfg : Config} {filename : Str} {services : Nat} {d : Doc} {i : Nat} {is : List Nat} {t m : Message}
    (h : D.write cfg filename services = .ok d) (ht : D.messages[i]? = some t) (hi : t.imported = false) (hm : D.getMessage (i :: is) = some m) :
    ∃ d', m.write D cfg = .ok d' ∧ Doc.Has d d' := by
  unfold FileDescriptor.write at h
  obtain ⟨u, hu, h⟩ := emit_bind h
  obtain ⟨e, he, h⟩ := emit_bind h
  obtain ⟨ms, hms, h⟩ := emit_bind h
  cases h
  simp only [FileDescriptor.getMessage, ht, Option.bind_some] at hm
  obtain ⟨x, hx, hh⟩ := emitAll_has hms t (List.mem_filter.mpr ⟨List.mem_of_getElem? ht, by rw [hi]; rfl⟩)
  obtain ⟨d', hd', hh'⟩ := descend_has hx hm
  exact ⟨d', hd', Has.left (Has.left (Has.right _ (Has.trans hh hh')) _) _⟩

end QP.Rust
