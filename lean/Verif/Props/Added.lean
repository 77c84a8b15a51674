import Verif.Proofs.AddEnums
import Verif.Props.SameMeaning
import Verif.Proofs.EnumDefaults
import Verif.Proofs.Named
import Verif.Proofs.Compile
import Verif.Proofs.Imports
import Verif.Proofs.Services
import Verif.Proofs.Legal
set_option linter.unusedVariables false
/-!
# Adding enums to a schema changes nothing else (C123)
-/

namespace QP.Pbrs
open Grammar Parse

variable {D : FileDescriptor} {E : List Enumerator}

theorem enumsIn_raw : ∀ {t : FieldType}, deepRaw t = true → t.enumsIn = []
  | .map k v, h => by
    have h : deepRaw k = true ∧ deepRaw v = true := by simpa [deepRaw] using h
    unfold FieldType.enumsIn
    rw [enumsIn_raw h.1, enumsIn_raw h.2]
    rfl
  | .enum _, h => by cases h
  | .message _, h => by cases h
  | .int32, _ | .sint32, _ | .sfixed32, _ | .int64, _ | .sint64, _ | .sfixed64, _ | .uint32, _ | .fixed32, _ | .uint64, _ | .fixed64, _ | .double, _
  | .float, _ | .stringCow, _ | .bytesCow, _ | .string_, _ | .bytes_, _ | .bool, _ | .messageOrEnum _, _ => rfl

/-- The enums that resolved types mention are there. -/
theorem enums_known_one {m : Message} {t t' : FieldType} (h : ResolvesOne D m t t') (hr : deepRaw t = true) : ∀ e ∈ t'.enumsIn, (D.getEnum e).isSome = true := by
  cases t with
  | messageOrEnum n =>
    rcases Means.target h with ⟨j, rfl, _⟩ | ⟨e, rfl, he⟩
    · intro e he; cases he
    · intro x hx
      have hx := List.mem_singleton.mp hx
      rw [hx]; exact he
  | _ =>
    have : t' = _ := h
    rw [this, enumsIn_raw hr]
    intro e he; cases he

theorem enums_known {m : Message} {t t' : FieldType} (h : ResolvesTo D m t t') (hr : deepRaw t = true) : ∀ e ∈ t'.enumsIn, (D.getEnum e).isSome = true := by
  cases t with
  | map k v =>
    obtain ⟨k', v', rfl, hk, hv⟩ := h
    have hr : deepRaw k = true ∧ deepRaw v = true := by simpa [deepRaw] using hr
    intro e he
    rcases List.mem_append.mp he with he | he
    · exact enums_known_one hk hr.1 e he
    · exact enums_known_one hv hr.2 e he
  | messageOrEnum n => exact enums_known_one (D := D) (m := m) (t := .messageOrEnum n) h hr
  | enum e => cases hr
  | message i => cases hr
  | _ =>
    have : t' = _ := h
    rw [this, enumsIn_raw hr]
    intro e he; cases he

theorem enumsIn_ownedOne (t : FieldType) : t.ownedOne.enumsIn = t.enumsIn := by
  cases t <;> rfl

theorem enumsIn_owned (t : FieldType) : t.owned.enumsIn = t.enumsIn := by
  cases t with
  | map k v =>
    show k.ownedOne.enumsIn ++ v.ownedOne.enumsIn = k.enumsIn ++ v.enumsIn
    rw [enumsIn_ownedOne, enumsIn_ownedOne]
  | _ => rfl

theorem fieldsAt_add (i : MessageIndex) : (D.addEnums E).fieldsAt i = D.fieldsAt i := by
  unfold FileDescriptor.fieldsAt
  rw [getMessage_add]

/-- A field of a message after some stages comes from one before. -/
theorem via_field {D D' : FileDescriptor} {H : MessageIndex → Field → Field} (v : Via D D' H) {i : MessageIndex} {m' : Message}
    (h : D'.getMessage i = some m') {f' : Field} (hf : f' ∈ m'.allFields) :
    ∃ m f, D.getMessage i = some m ∧ f ∈ m.allFields ∧ f' = H i f := by
  have hv := v i
  unfold FileDescriptor.fieldsAt at hv
  rw [h] at hv
  cases hm : D.getMessage i with
  | none => rw [hm] at hv; cases hv
  | some m =>
    rw [hm] at hv
    have hv := Option.some.inj hv
    have h1 : m'.fields = m.fields.map (H i) := congrArg Prod.fst hv
    have h2 : m'.oneofs.map (·.fields) = (m.oneofs.map (·.fields)).map (fun x => x.map (H i)) := congrArg Prod.snd hv
    refine ⟨m, ?_⟩
    rcases List.mem_append.mp hf with hf | hf
    · rw [h1] at hf
      obtain ⟨f, hf2, rfl⟩ := List.mem_map.mp hf
      exact ⟨f, rfl, List.mem_append_left _ hf2, rfl⟩
    · obtain ⟨o, ho, hf⟩ := List.mem_flatMap.mp hf
      have : o.fields ∈ m'.oneofs.map (·.fields) := List.mem_map.mpr ⟨o, ho, rfl⟩
      rw [h2] at this
      obtain ⟨l, hl, hl'⟩ := List.mem_map.mp this
      obtain ⟨o1, ho1, rfl⟩ := List.mem_map.mp hl
      have hf : f' ∈ o.fields := hf
      rw [← hl'] at hf
      obtain ⟨f, hf2, rfl⟩ := List.mem_map.mp hf
      exact ⟨f, rfl, List.mem_append_right _ (List.mem_flatMap.mpr ⟨o1, ho1, hf2⟩), rfl⟩

theorem fieldOut_all {m : Message} (h : Parse.MessageOut m) {f : Field} (hf : f ∈ m.allFields) : Parse.FieldOut f := by
  cases h with
  | mk h1 h2 h3 =>
    rcases List.mem_append.mp hf with hf | hf
    · exact (h1 f hf).1
    · obtain ⟨o, ho, hf⟩ := List.mem_flatMap.mp hf
      exact h2 o ho f hf

theorem boxed_typ {f f' : Field} (h : BoxedOptional f f') : f'.typ = f.typ := by
  rcases h with h | ⟨_, _, _, _, h⟩ <;> rw [h]

theorem shells_isSome {D D' : FileDescriptor} (h : SameShells D D') {e : EnumIndex} (he : (D.getEnum e).isSome = true) : (D'.getEnum e).isSome = true := by
  have := congrArg Option.isSome (h.getEnum e)
  rw [Option.isSome_map, Option.isSome_map] at this
  rw [this]; exact he

/-- Compiling a schema with more enums, which nothing names, gives the same messages. -/
theorem compile_add {cfg : Config} {R : FileDescriptor} (hD : ∀ m ∈ D.messages, Parse.MessageOut m) (hd : ∀ e ∈ E, '.' ∉ e.name)
    (hu : ∀ e ∈ E, Unnamed D e) (h : D.compile (typePath cfg) cfg = .ok R) :
    (D.addEnums E).compile (typePath cfg) cfg = .ok (R.addEnums ((indexed D.enums.length E).map Enumerator.sanitizeNames)) := by
  obtain ⟨D1, D2, D3, D4, S⟩ := compile_stages h
  obtain ⟨H, v1, hH⟩ := resolve_via S.resolve
  obtain ⟨_, B, hR, hB⟩ := breakCycles_ok (C52_positions S.resolve) S.cycles
  have v3 := convert_stage cfg D2
  rw [← S.convert] at v3
  have v := (v1.trans hR.via).trans v3
  have hsh := stage3_shells S
  have hall : ∀ i m, D3.getMessage i = some m → ∀ f ∈ m.allFields, ∀ e ∈ f.typ.enumsIn, (D3.getEnum e).isSome = true := by
    intro i m hm f hf e he
    obtain ⟨m0, f0, hm0, hf0, rfl⟩ := via_field v hm hf
    obtain ⟨t, ht, hfe⟩ := hH i m0 hm0 f0 hf0
    have hraw := (fieldOut_all (getMessage_out hD hm0) hf0).typ
    refine shells_isSome hsh (enums_known ht hraw e ?_)
    have hty : (B i (H i f0)).typ = t := by rw [boxed_typ (hB i _), hfe]
    have he : e ∈ (if cfg.dontUseCow = true then (B i (H i f0)).typ.owned else (B i (H i f0)).typ).enumsIn := he
    rw [hty] at he
    split at he
    · rw [enumsIn_owned] at he; exact he
    · exact he
  have hpath : ∀ m ∈ D3.messages, TypesAll (fun t => typePath cfg (D3.addEnums (indexed D.enums.length E)) t = typePath cfg D3 t) m :=
    typesAll_top fun i m hm f hf => by
      have := typeText_known (E := indexed D.enums.length E) cfg f.typ (hall i m hm f hf)
      unfold typePath
      rw [this]
  have hempty : ((D.addEnums E).messages.isEmpty && (D.addEnums E).enums.isEmpty) = false := by
    cases hm : D.messages with
    | cons a b => show (D.messages.isEmpty && _) = false; rw [hm]; rfl
    | nil =>
      show (D.messages.isEmpty && (D.enums ++ E).isEmpty) = false
      unfold FileDescriptor.compile at h
      cases he : D.enums with
      | nil => rw [hm, he] at h; cases h
      | cons a b => rw [hm]; rfl
  have hconv : (if cfg.dontUseCow = true then
      ((D2.addEnums (indexed D.enums.length E)).convertFieldTypes .stringCow .string_).convertFieldTypes .bytesCow .bytes_
      else D2.addEnums (indexed D.enums.length E)) = D3.addEnums (indexed D.enums.length E) := by
    rw [S.convert]
    split <;> rfl
  unfold FileDescriptor.compile
  rw [if_neg (by rw [hempty]; exact Bool.false_ne_true), resolve_add hd hu S.resolve]
  dsimp only
  rw [breakCycles_add S.cycles]
  dsimp only
  rw [sanity_add S.sane]
  dsimp only
  rw [hconv, setDefaults_add hpath S.defaults]
  dsimp only
  rw [S.names]
  have hs : ∀ E', (D4.addEnums E').sanitizeNames = D4.sanitizeNames.addEnums (E'.map Enumerator.sanitizeNames) := by
    intro E'
    unfold FileDescriptor.sanitizeNames FileDescriptor.addEnums
    dsimp only
    rw [List.map_append]
  rw [hs]

/-! ## The text -/

/-- types.rs 3119-3132, what is written for one enum. -/
def enumText (e : Enumerator) : Emit Doc := do
  let d ← e.writeImplDefault
  pure (Doc.nl ++ e.writeDefinition ++ Doc.nl ++ d ++ Doc.nl ++ e.writeFromI32 ++ Doc.nl ++ e.writeFromStr)

theorem emit_bind_inv {α β : Type} {a : Emit α} {f : α → Emit β} {y : β} (h : a >>= f = .ok y) : ∃ x, a = .ok x ∧ f x = .ok y := by
  cases a with
  | error e => cases h
  | ok x => exact ⟨x, rfl, h⟩

theorem emitAll_append {α : Type} {f : α → Emit Doc} {b : Doc} {l' : List α} (hb : emitAll f l' = .ok b) : ∀ {l : List α} {a : Doc}, emitAll f l = .ok a →
    ∃ c, emitAll f (l ++ l') = .ok c ∧ c.str = a.str ++ b.str
  | [], a, h => by
    cases h
    exact ⟨b, hb, rfl⟩
  | x :: l, a, h => by
    obtain ⟨d, hd, h⟩ := emit_bind_inv h
    obtain ⟨ds, hds, h⟩ := emit_bind_inv h
    cases h
    obtain ⟨c, hc, e⟩ := emitAll_append hb hds
    refine ⟨d ++ c, ?_, ?_⟩
    · show (f x >>= fun d => emitAll f (l ++ l') >>= fun ds => pure (d ++ ds)) = _
      rw [hd, hc]; rfl
    · rw [Doc.str_append, Doc.str_append, e, List.append_assoc]

theorem enums_write : ∀ {l : List Enumerator}, (∀ e ∈ l, e.partiallyQualified ≠ []) → ∃ u, emitAll enumText l = .ok u
  | [], _ => ⟨_, rfl⟩
  | e :: l, h => by
    obtain ⟨u, hu⟩ := enums_write fun x hx => h x (List.mem_cons_of_mem _ hx)
    have h1 := h e List.mem_cons_self
    cases hp : e.partiallyQualified with
    | nil => exact absurd hp h1
    | cons p ps =>
      have : ∃ d, enumText e = .ok d := by
        unfold enumText Enumerator.writeImplDefault
        rw [hp]
        exact ⟨_, rfl⟩
      obtain ⟨d, hd⟩ := this
      refine ⟨d ++ u, ?_⟩
      show (enumText e >>= fun d => emitAll enumText l >>= fun ds => pure (d ++ ds)) = _
      rw [hd, hu]; rfl

/-- The text of a schema with more enums is that of the schema with the text of the enums in one place. -/
theorem write_add {cfg : Config} {f : Str} {k : Nat} {t u : Doc} (hE : emitAll enumText (E.filter fun e => !e.imported) = .ok u)
    (h : D.write cfg f k = .ok t) : ∃ a b t', t.str = a ++ b ∧ (D.addEnums E).write cfg f k = .ok t' ∧ t'.str = a ++ u.str ++ b := by
  have hm := more_add (D := D) (E := E)
  unfold FileDescriptor.write at h
  obtain ⟨uses, hu, h⟩ := emit_bind_inv h
  obtain ⟨en, he, h⟩ := emit_bind_inv h
  obtain ⟨ms, hms, h⟩ := emit_bind_inv h
  have h := Except.ok.inj h
  have he' : emitAll enumText (D.enums.filter fun e => !e.imported) = .ok en := he
  obtain ⟨c, hc, e⟩ := emitAll_append hE he'
  have hc' : (D.addEnums E).writeEnums = .ok c := by
    show emitAll enumText ((D.enums ++ E).filter fun e => !e.imported) = .ok c
    rw [List.filter_append]; exact hc
  have hu' : (D.addEnums E).writeUses cfg = .ok uses := by rw [hm.writeUses]; exact hu
  have hms' := hm.writeMessages (cfg := cfg) _ hms
  refine ⟨((if cfg.headers then FileDescriptor.writeHeaders cfg f else .empty) ++ Doc.nl ++ uses ++ D.writeImports ++ en).str,
    (ms ++ Doc.concat (List.replicate k Doc.nl) ++ Doc.nl).str,
    (if cfg.headers then FileDescriptor.writeHeaders cfg f else .empty) ++ Doc.nl ++ uses ++ (D.addEnums E).writeImports ++ c ++ ms
      ++ Doc.concat (List.replicate k Doc.nl) ++ Doc.nl, ?_, ?_, ?_⟩
  · rw [← h]
    simp only [Doc.str_append, List.append_assoc]
  · unfold FileDescriptor.write
    rw [hu', hc', hms']
    rfl
  · rw [hm.writeImports]
    simp only [Doc.str_append, List.append_assoc, e]

/-! ## From the file -/

theorem setPackage_allFields (p q : Str) (m : Message) : (m.setPackage p q).allFields = m.allFields := by
  cases m with
  | mk name fields oneofs nums names imported pkg messages enums module index =>
    show fields ++ (oneofs.map (fun o => { o with package := if p.isEmpty then name else dotted p name, module := q ++ ".mod_".toList ++ name })).flatMap (·.fields)
      = fields ++ oneofs.flatMap (·.fields)
    congr 1
    induction oneofs with
    | nil => rfl
    | cons o os ih => exact congrArg (o.fields ++ ·) ih

theorem unnamed_setPackages {D D1 : FileDescriptor} {p q : Str} (hm : D1.messages = Message.setPackageAll p q D.messages) {e e' : Enumerator} (he : e'.name = e.name)
    (h : Unnamed D e) : Unnamed D1 e' := by
  intro i m hi f hf n hn
  rw [he]
  cases i with
  | nil => cases hi
  | cons k ks =>
    have hi : ((Message.setPackageAll p q D.messages)[k]?.bind fun m => m.descend ks) = some m := by rw [← hm]; exact hi
    obtain ⟨y, p', q', hy, rfl⟩ := descend_setPackageAll ks p q D.messages k m hi
    rw [setPackage_allFields] at hf
    exact h (k :: ks) y hy f hf n hn

/-- What is compiled from the text of a file without imports. -/
def File.parsed (F : File) (file : Str) (o : Bool) : FileDescriptor :=
  { ({ F.desc with module := if F.desc.package.isEmpty then getFileStem file else F.desc.package } : FileDescriptor).setPackages with owned := o }

theorem read_plain {n : Nat} {fs : Files} {search : List Str} {file s : Str} {F : File} (hs : fs file = some s) (hF : FileText F s) (hi : F.imports = []) :
    ∃ D, readProtoFile fs search (n + 1) file = .ok D ∧ ∀ o, ({ D with owned := o } : FileDescriptor) = File.parsed F file o := by
  refine ⟨({ F.desc with module := if F.desc.package.isEmpty then getFileStem file else F.desc.package } : FileDescriptor).setPackages, ?_, fun o => rfl⟩
  unfold readProtoFile parseFile
  rw [hs]
  dsimp only
  rw [(C54_parse hF).2]
  dsimp only
  rw [hi]
  rfl

theorem compileFile_plain {n : Nat} {fs : Files} {search : List Str} {path : FileDescriptor → FieldType → Str} {cfg : Config} {file s : Str} {F : File}
    (hs : fs file = some s) (hF : FileText F s) (hi : F.imports = []) :
    compileFile fs search path cfg (n + 1) file = match (File.parsed F file cfg.owned).compile path cfg with
      | .error e => .error (.compile e)
      | .ok D => .ok D := by
  obtain ⟨D, hD, ho⟩ := read_plain (n := n) (search := search) hs hF hi
  unfold compileFile
  rw [hD]
  dsimp only
  rw [ho]
  cases (File.parsed F file cfg.owned).compile path cfg <;> rfl

theorem services_file {s : Str} {F : File} (hF : FileText F s) : servicesOf s = F.services.length := by
  unfold servicesOf
  rw [(C54_parse hF).2]

/-- **C123, partial.** Adding enums at the end of a file without imports, whose names no field mentions, adds text in one place of what pb-rs generates and changes
nothing else. -/
theorem C123_enum_partial {n : Nat} {j : Job} {d d' : Disk} {F F' : File} {s s' t : Str} (hs : d.file j.inFile = some s) (hs' : d'.file j.inFile = some s')
    (hF : FileText F s) (hF' : FileText F' s') (hi : F.imports = []) (hi' : F'.imports = []) (hsv : F'.services = F.services)
    (hdesc : F'.desc = F.desc.addEnums E) (hne : ∀ e ∈ E, e.fields ≠ []) (hu : ∀ e ∈ E, Unnamed F.desc e) (ht : j.text n d = some t) :
    ∃ a u b, t = a ++ b ∧ j.text n d' = some (a ++ u ++ b) := by
  cases n with
  | zero =>
    unfold Job.text Job.compiled at ht
    cases ht
  | succ n =>
    have hnamed := readProto_named (C54_parse hF').2
    rw [hdesc] at hnamed
    have hname : ∀ e ∈ E, '.' ∉ e.name := fun e he => word_noDot (hnamed.enums e (List.mem_append_right _ he)).name
    generalize hM : (if F.desc.package.isEmpty then getFileStem j.inFile else F.desc.package) = M
    have hadd : File.parsed F' j.inFile j.cfg.owned = (File.parsed F j.inFile j.cfg.owned).addEnums (E.map (Enumerator.setPackage F.desc.package M)) := by
      unfold File.parsed
      rw [hdesc]
      show _ = _
      unfold FileDescriptor.setPackages FileDescriptor.addEnums
      dsimp only
      rw [List.map_append, hM]
    unfold Job.text Job.compiled at ht ⊢
    rw [compileFile_plain hs hF hi] at ht
    rw [compileFile_plain hs' hF' hi', hadd, hs', Option.getD_some, services_file hF', hsv]
    rw [hs, Option.getD_some, services_file hF] at ht
    cases hc : (File.parsed F j.inFile j.cfg.owned).compile (typePath j.cfg) j.cfg with
    | error e => rw [hc] at ht; cases ht
    | ok R =>
      rw [hc] at ht
      have hout : ∀ m ∈ (File.parsed F j.inFile j.cfg.owned).messages, MessageOut m := by
        obtain ⟨D, hD, ho⟩ := read_plain (n := n) (search := []) hs hF hi
        have := readProtoFile_out (n + 1) hD
        rw [← ho]
        exact this
      rw [compile_add hout (by
          intro e he
          obtain ⟨e0, he0, rfl⟩ := List.mem_map.mp he
          exact hname e0 he0) (by
          intro e he
          obtain ⟨e0, he0, rfl⟩ := List.mem_map.mp he
          exact unnamed_setPackages (D := F.desc) rfl rfl (hu e0 he0)) hc]
      dsimp only [Option.bind_some] at ht ⊢
      generalize hE' : List.map Enumerator.sanitizeNames (indexed (File.parsed F j.inFile j.cfg.owned).enums.length (E.map (Enumerator.setPackage F.desc.package M))) = E'
      have hpr : (R.addEnums E').printed j.cfg = (R.printed j.cfg).addEnums E' := by
        unfold FileDescriptor.printed
        split <;> rfl
      rw [hpr]
      have hpq : ∀ e ∈ E', e.partiallyQualified ≠ [] := by
        intro e he
        rw [← hE'] at he
        obtain ⟨e1, he1, rfl⟩ := List.mem_map.mp he
        obtain ⟨⟨e2, k⟩, he2, rfl⟩ := List.mem_map.mp he1
        obtain ⟨e3, he3, rfl⟩ := List.mem_map.mp (zipIdx_of_mem he2)
        intro hz
        exact hne e3 he3 (List.map_eq_nil_iff.mp hz)
      obtain ⟨u, hu⟩ := enums_write (l := E'.filter fun e => !e.imported) fun e he => hpq e (List.mem_of_mem_filter he)
      cases hw : (R.printed j.cfg).write j.cfg (splitSlash j.inFile).2 F.services.length with
      | error e => rw [hw] at ht; cases ht
      | ok w =>
        rw [hw] at ht
        obtain ⟨a, b, w', h1, h2, h3⟩ := write_add hu hw
        cases ht
        refine ⟨a, u.str, b, h1, ?_⟩
        rw [h2]
        show some w'.str = _
        rw [h3]

theorem adopt_name (p q : Str) (e : Enumerator) : (e.adopt p q).name = e.name := by
  show (if e.package.isEmpty then e.setPackage p q else e).name = e.name
  split <;> rfl

/-- **C123, partial.** Importing a file that declares only enums that no field mentions does not change what pb-rs generates. -/
theorem C123_import_partial {n : Nat} {j : Job} {d d' : Disk} {F F' I : File} {s s' si imp p t : Str} (hs : d.file j.inFile = some s)
    (hs' : d'.file j.inFile = some s') (hF : FileText F s) (hF' : FileText F' s') (hi : F.imports = []) (hi' : F'.imports = [imp]) (hsv : F'.services = F.services)
    (hdesc : F'.desc = F.desc) (hp : findImport d'.file j.search j.inFile imp = some p) (hsi : d'.file p = some si) (hI : FileText I si) (hii : I.imports = [])
    (hm : I.desc.messages = []) (hu : ∀ e ∈ I.desc.enums, Unnamed F.desc e) (ht : j.text (n + 2) d = some t) :
    j.text (n + 2) d' = some t := by
  have hname : ∀ e ∈ I.desc.enums, '.' ∉ e.name := fun e he => word_noDot ((readProto_named (C54_parse hI).2).enums e he).name
  obtain ⟨DI, hDI, hoI⟩ := read_plain (n := n) (search := j.search) hsi hI hii
  have hDIe : DI.enums = I.desc.enums.map (Enumerator.setPackage I.desc.package (if I.desc.package.isEmpty then getFileStem p else I.desc.package)) :=
    congrArg FileDescriptor.enums (hoI false)
  have hDIm : DI.messages = [] := by
    have : DI.messages = Message.setPackageAll I.desc.package (if I.desc.package.isEmpty then getFileStem p else I.desc.package) I.desc.messages :=
      congrArg FileDescriptor.messages (hoI false)
    rw [this, hm]; rfl
  obtain ⟨E, hE⟩ : ∃ E, E = DI.enums.map (Enumerator.adopt DI.package DI.module) := ⟨_, rfl⟩
  have hmem : ∀ e ∈ E, (∃ e0 ∈ I.desc.enums, e.name = e0.name) ∧ e.imported = true := by
    intro e he
    rw [hE] at he
    obtain ⟨e1, he1, rfl⟩ := List.mem_map.mp he
    rw [hDIe] at he1
    obtain ⟨e0, he0, rfl⟩ := List.mem_map.mp he1
    exact ⟨⟨e0, he0, adopt_name _ _ _⟩, rfl⟩
  have hc' : compileFile d'.file j.search (typePath j.cfg) j.cfg (n + 2) j.inFile = match ((File.parsed F j.inFile j.cfg.owned).addEnums E).compile (typePath j.cfg) j.cfg with
      | .error e => .error (.compile e)
      | .ok D => .ok D := by
    have hr : readProtoFile d'.file j.search (n + 2) j.inFile =
        .ok (({ F.desc with module := if F.desc.package.isEmpty then getFileStem j.inFile else F.desc.package } : FileDescriptor).setPackages.addEnums E) := by
      unfold readProtoFile parseFile
      rw [hs']
      dsimp only
      rw [(C54_parse hF').2]
      dsimp only
      rw [hi', hdesc]
      unfold fetchImports
      rw [hp]
      dsimp only
      rw [hDI]
      dsimp only
      unfold fetchImports
      rw [hDIm, ← hE]
      unfold FileDescriptor.addEnums
      rw [List.map_nil, List.append_nil]
    unfold compileFile
    rw [hr]
    show (match ((File.parsed F j.inFile j.cfg.owned).addEnums E).compile (typePath j.cfg) j.cfg with
      | .error e => .error (.compile e)
      | .ok D => .ok D : Except PbrsError FileDescriptor) = _
    cases ((File.parsed F j.inFile j.cfg.owned).addEnums E).compile (typePath j.cfg) j.cfg <;> rfl
  unfold Job.text Job.compiled at ht ⊢
  rw [compileFile_plain hs hF hi] at ht
  rw [hc', hs', Option.getD_some, services_file hF', hsv]
  rw [hs, Option.getD_some, services_file hF] at ht
  cases hc : (File.parsed F j.inFile j.cfg.owned).compile (typePath j.cfg) j.cfg with
  | error e => rw [hc] at ht; cases ht
  | ok R =>
    rw [hc] at ht
    have hout : ∀ m ∈ (File.parsed F j.inFile j.cfg.owned).messages, MessageOut m := by
      obtain ⟨D, hD, ho⟩ := read_plain (n := n) (search := []) hs hF hi
      have := readProtoFile_out (n + 1) hD
      rw [← ho]
      exact this
    rw [compile_add hout (by
        intro e he
        obtain ⟨e0, he0, hn⟩ := (hmem e he).1
        rw [hn]
        exact hname e0 he0) (by
        intro e he
        obtain ⟨e0, he0, hn⟩ := (hmem e he).1
        exact unnamed_setPackages (D := F.desc) rfl hn (hu e0 he0)) hc]
    dsimp only [Option.bind_some] at ht ⊢
    generalize hE' : List.map Enumerator.sanitizeNames (indexed (File.parsed F j.inFile j.cfg.owned).enums.length E) = E'
    have hpr : (R.addEnums E').printed j.cfg = (R.printed j.cfg).addEnums E' := by
      unfold FileDescriptor.printed
      split <;> rfl
    rw [hpr]
    have hfil : (E'.filter fun e => !e.imported) = [] := by
      rw [List.filter_eq_nil_iff]
      intro e he
      rw [← hE'] at he
      obtain ⟨e1, he1, rfl⟩ := List.mem_map.mp he
      obtain ⟨⟨e2, k⟩, he2, rfl⟩ := List.mem_map.mp he1
      have : e2.imported = true := (hmem e2 (zipIdx_of_mem he2)).2
      show ¬ (!e2.imported) = true
      rw [this]
      decide
    cases hw : (R.printed j.cfg).write j.cfg (splitSlash j.inFile).2 F.services.length with
    | error e => rw [hw] at ht; cases ht
    | ok w =>
      rw [hw] at ht
      obtain ⟨a, b, w', h1, h2, h3⟩ := write_add (E := E') (u := .empty) (by rw [hfil]; rfl) hw
      cases ht
      rw [h2]
      have he : Doc.empty.str = [] := rfl
      rw [he, List.append_nil, ← h1] at h3
      show some w'.str = _
      rw [h3]

/-! ## Adding a message -/

namespace AddedExample
open RunExample MeaningExample

/-- A file with three messages in a cycle ... -/
def three : Str := c! "message A { optional B b = 1; } message B { optional A a = 1; optional C c = 2; } message C { optional A a = 1; }"
/-- ... and the file with a fourth message that nothing names. -/
def four : Str := three ++ c! " message D { optional B b = 1; }"

/-- How many characters two texts have in common at the start. -/
def common : Str → Str → Nat
  | c :: cs, d :: ds => if c = d then common cs ds + 1 else 0
  | _, _ => 0

theorem common_append : ∀ (a x y : Str), a.length ≤ common (a ++ x) (a ++ y)
  | [], _, _ => Nat.zero_le _
  | c :: cs, x, y => by
    show cs.length + 1 ≤ if c = c then common (cs ++ x) (cs ++ y) + 1 else 0
    rw [if_pos rfl]
    exact Nat.succ_le_succ (common_append cs x y)

theorem not_inserted {t t' : Str} (h : common t t' + common t.reverse t'.reverse < t.length) : ¬ ∃ a u b, t = a ++ b ∧ t' = a ++ u ++ b := by
  rintro ⟨a, u, b, rfl, rfl⟩
  have h1 := common_append a b (u ++ b)
  have h2 := common_append b.reverse a.reverse (u.reverse ++ a.reverse)
  rw [List.length_reverse, ← List.reverse_append, ← List.reverse_append, ← List.reverse_append] at h2
  rw [← List.append_assoc] at h1
  rw [List.length_append] at h
  omega

/-- Does the one text occur in the other? -/
def occurs (p : Str) : Str → Bool
  | [] => p.isEmpty
  | c :: cs => p.isPrefixOf (c :: cs) || occurs p cs

theorem occurs_iff (p : Str) : ∀ t : Str, occurs p t = true ↔ p <:+: t
  | [] => by
    show p.isEmpty = true ↔ _
    rw [List.isEmpty_iff, List.infix_nil]
  | c :: cs => by
    show (p.isPrefixOf (c :: cs) || occurs p cs) = true ↔ _
    rw [Bool.or_eq_true, List.isPrefixOf_iff_prefix, occurs_iff p cs, List.infix_cons_iff]

/-- **C123, refuted for messages.** Adding a message that nothing names to a file without imports can change the code of the others: a field of `B` has the type
`Option<Box<C>>` without the message `D` and `Option<C>` with it. -/
theorem C123_refuted : ∃ t t', abJob.text 1 (disk [(c! "x.proto", three)] []) = some t ∧ abJob.text 1 (disk [(c! "x.proto", four)] []) = some t' ∧
    c! "pub c: Option<Box<C>>" <:+: t ∧ ¬ c! "pub c: Option<Box<C>>" <:+: t' ∧ c! "pub c: Option<C>" <:+: t' ∧
    ¬ ∃ a u b, t = a ++ b ∧ t' = a ++ u ++ b := by
  have h : (match abJob.text 1 (disk [(c! "x.proto", three)] []), abJob.text 1 (disk [(c! "x.proto", four)] []) with
      | some t, some t' => occurs (c! "pub c: Option<Box<C>>") t && !occurs (c! "pub c: Option<Box<C>>") t' && occurs (c! "pub c: Option<C>") t' &&
          decide (common t t' + common t.reverse t'.reverse < t.length)
      | _, _ => false) = true := by decide +kernel
  split at h
  · rename_i t t' e e'
    simp only [Bool.and_eq_true, Bool.not_eq_true', decide_eq_true_eq] at h
    obtain ⟨⟨⟨h1, h2⟩, h3⟩, h4⟩ := h
    refine ⟨t, t', e, e', (occurs_iff _ _).mp h1, fun hx => ?_, (occurs_iff _ _).mp h3, not_inserted h4⟩
    rw [(occurs_iff _ _).mpr hx] at h2
    cases h2
  · cases h

/-! ## Adding an enum -/

def color : Enumerator := { name := c! "Color", fields := [(c! "RED", 0), (c! "BLUE", 1)] }

def more : Str := plain ++ c! " enum Color { RED = 0; BLUE = 1; }"

def moreFile : File := { desc := { syntax_ := .proto2, messages := [msg], enums := [color] } }

theorem color_text : EnumText color (c! "enum Color { RED = 0; BLUE = 1; }") := by
  have hb : EnumBody color.fields _ := .value (g := c! " ") (name := c! "BLUE") (g1 := c! " ") (g2 := c! " ") (num := c! "1") (t := []) (n := 1)
    (.value (g := c! " ") (name := c! "RED") (g1 := c! " ") (g2 := c! " ") (num := c! "0") (t := []) (n := 0) .nil space (word_of (by decide)) space space
      (Or.inl (.digit (d := 0) (by decide))) (by decide) (.gap .nil))
    space (word_of (by decide)) space space (Or.inl (.digit (d := 1) (by decide))) (by decide) (.gap .nil)
  have he : EnumText color _ := .mk (e := []) space1 (word_of (by decide)) space hb space (Or.inl rfl)
  have e : ∀ {a b : Str}, EnumText color a → a = b → EnumText color b := fun h e => e ▸ h
  exact e he (by decide +kernel)

theorem msg_text : MessageText .proto2 msg plain := by
  have hfield : FieldText .proto2 field ((c! "optional" ++ c! " ") ++
      (c! "int32" ++ c! " " ++ field.name ++ c! " " ++ c! "=" ++ c! " " ++ c! "1" ++ [] ++ [] ++ [] ++ c! ";")) :=
    ⟨_, _, rfl, .optional2 space1, .mk (n := 1) (.scalar (by decide)) space1 (word_of (by decide)) space space (.digit (d := 1) (by decide)) rfl (by decide) .nil .nil
      ⟨rfl, Or.inr ⟨rfl, rfl⟩, Or.inl ⟨rfl, rfl⟩⟩ .nil rfl⟩
  have hm : MessageText .proto2 msg _ :=
    .mk (m := msg) (e := []) space1 (word_of (by decide)) space (BodyText.field (BodyText.nil (syn := .proto2) (name := c! "M")) space hfield) space (Or.inl rfl)
  have e : ∀ {a b : Str}, MessageText .proto2 msg a → a = b → MessageText .proto2 msg b := fun h e => e ▸ h
  exact e hm (by decide +kernel)

theorem more_file : FileText moreFile more :=
  same (.default (g := []) (.enum (.message (g := []) (StatementsText.nil (syn := .proto2)) .nil msg_text) space color_text) (Or.inl .nil)) (by decide +kernel)

def colors : Str := c! "enum Color { RED = 0; BLUE = 1; }"
def colorsFile : File := { desc := { syntax_ := .proto2, enums := [color] } }
theorem colors_file : FileText colorsFile colors :=
  same (.default (g := []) (.enum (g := []) (StatementsText.nil (syn := .proto2)) .nil color_text) (Or.inl .nil)) (by decide +kernel)

def importing : Str := c! "import \"c.proto\";" ++ plain
def importingFile : File := { desc := { syntax_ := .proto2, messages := [msg] }, imports := [c! "c.proto"] }
theorem importing_file : FileText importingFile importing :=
  same (.default (g := []) (.message (g := []) (.import_ (p := c! "c.proto") (g := []) (g2 := []) (StatementsText.nil (syn := .proto2)) .nil space1 (by decide) .nil)
    .nil msg_text) (Or.inl .nil)) (by decide +kernel)

theorem uses_int {n : Str} : ¬ FieldType.int32.uses n := by
  rintro (h | ⟨_, _, h, _⟩) <;> cases h

theorem color_unnamed : Unnamed file.desc color := by
  intro i m hi f hf n hn
  have : f.typ.uses n → False := by
    cases i with
    | nil => cases hi
    | cons k ks =>
      match k, ks, hi with
      | 0, [], hi =>
        cases hi
        have hf : f ∈ [field] := hf
        rw [List.mem_singleton.mp hf]
        exact uses_int
      | 0, j :: js, hi => cases hi
      | k + 1, js, hi => cases hi
  exact absurd hn this

/-- **C123.** The hypotheses are met, and something is generated. -/
theorem C123_example : ∃ t, abJob.text 1 (disk [(c! "x.proto", plain)] []) = some t ∧
    ∃ a u b, t = a ++ b ∧ abJob.text 1 (disk [(c! "x.proto", more)] []) = some (a ++ u ++ b) := by
  have h : (abJob.text 1 (disk [(c! "x.proto", plain)] [])).isSome = true := by decide +kernel
  obtain ⟨t, ht⟩ := Option.isSome_iff_exists.mp h
  refine ⟨t, ht, ?_⟩
  exact C123_enum_partial (E := [color]) (F := file) (F' := moreFile) (s := plain) (s' := more) (d := disk [(c! "x.proto", plain)] [])
    (d' := disk [(c! "x.proto", more)] []) rfl rfl plain_file more_file rfl rfl rfl rfl
    (by intro e he; rw [List.mem_singleton.mp he]; decide) (by intro e he; rw [List.mem_singleton.mp he]; exact color_unnamed) ht

/-- A run with an include path. -/
def job : Job := { abJob with search := [c! "."] }

/-- **C123.** The hypotheses are met: the enums of an imported file. -/
theorem C123_import_example : ∃ t, job.text 2 (disk [(c! "x.proto", plain)] []) = some t ∧
    job.text 2 (disk [(c! "x.proto", importing), (c! "c.proto", colors)] []) = some t := by
  have h : (job.text 2 (disk [(c! "x.proto", plain)] [])).isSome = true := by decide +kernel
  obtain ⟨t, ht⟩ := Option.isSome_iff_exists.mp h
  refine ⟨t, ht, ?_⟩
  exact C123_import_partial (j := job) (F := file) (F' := importingFile) (I := colorsFile) (s := plain) (s' := importing) (si := colors) (imp := c! "c.proto") (p := c! "c.proto")
    (d := disk [(c! "x.proto", plain)] []) (d' := disk [(c! "x.proto", importing), (c! "c.proto", colors)] []) rfl rfl plain_file importing_file rfl rfl rfl rfl
    (by decide +kernel) rfl colors_file rfl rfl (by intro e he; rw [List.mem_singleton.mp he]; exact color_unnamed) ht

end AddedExample

end QP.Pbrs
