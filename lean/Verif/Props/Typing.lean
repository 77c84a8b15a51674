import Verif.Proofs.Typing
import Verif.Props.EnumDefaults
import Verif.Proofs.EvalProg
set_option linter.unusedVariables false
/-!
# The generated functions type-check (C108)
-/

namespace QP.Rust
open QP.Pbrs QP.Gen Spec

theorem meaning_text {F : Rounding} {D : FileDescriptor} {t : Ty} {s : Str} (h : meaning F D t s ≠ .none) : isText F D t s := by
  have key : ∀ o : Option RVal, o.getD .none ≠ .none → o.isSome = true := by
    intro o ho
    cases o with
    | none => exact absurd rfl ho
    | some _ => rfl
  unfold meaning at h
  unfold isText
  cases t with
  | adt p l =>
    simp only at h ⊢
    cases hv : enumValue D p s with
    | none => rw [hv] at h; exact absurd rfl h
    | some n => rfl
  | _ => exact key _ h

theorem typed_ne {C : Ctx} {t : FieldType} {v : RVal} (h : HasType C (fun _ _ => False) t v) : v ≠ .none := by
  rintro rfl
  cases t <;> first | (obtain ⟨_, h⟩ := h; cases h; done) | (obtain ⟨_, h, _⟩ := h; cases h; done) | exact h

section
variable {C : Ctx} {P : Prog} {dflt : Path → RVal} {text : Ty → Str → Prop}

theorem program_fits (G : Generates C P dflt) (hL : ∀ e en s, C.D.getEnum e = some en → en.fullyQualified.head? = some s →
    text (.adt (enumPath C.D en) false) s) (self : Path) : Fits C.D (P.scope text self) where
  message i m hm := by
    obtain ⟨s, _, h⟩ := G.structs i m hm
    show (P.structs _).isSome = true
    rw [h]; rfl
  enum e en he := by
    show (P.enums _).isSome = true
    rw [G.enums e en he]; rfl
  first := hL

theorem message_fits (G : Generates C P dflt) (hS : SchemaOk C) (hK : PackedOk C) (hT : PlainTypes C.D)
    (hL : ∀ i m, C.D.getMessage i = some m → ∀ f ∈ m.fields, ∀ s, f.default = some s → f.typ.asMessage = none → f.frequency.generated = .singular →
      text (litTy C.D C.cfg f.typ) s)
    {idx : MessageIndex} {m : Message} (hm : C.D.getMessage idx = some m) : MessageFits C.D C.cfg (P.scope text (messagePath C.D m)) m := by
  obtain ⟨fs, size, write, read, db, hfs, hsize, hwrite, hread, hdb, hP⟩ := generated_def G hm
  have hin := sources_in hS hK hm hread
  unfold structFields at hfs
  obtain ⟨ts, hts, hfs⟩ := Option.bind_eq_some_iff.mp hfs
  obtain ⟨os, hos, rfl⟩ := Option.map_eq_some_iff.mp hfs
  refine ⟨?_, ?_, ?_, ?_⟩
  · show (P.structs (messagePath C.D m)).isSome = true
    rw [hP]; rfl
  · intro f hf
    obtain ⟨h1, h2, h3, _⟩ := hin (.inl f) (List.mem_append_left _ (List.mem_map.mpr ⟨f, hf, rfl⟩))
    have hfm := List.mem_of_mem_filter hf
    refine ⟨fun hb => ⟨h1.boxed hb, h2 hb⟩, h1.map, h1.packed, h3, ?_, ?_⟩
    · intro k v K ht hk
      have := hT.keys idx m f k v hm hfm ht
      cases k <;> first | (cases this; done) | (cases hk; trivial)
    · intro d hd hg ho
      refine hL idx m hm f hfm d hd ?_ hg
      cases ht : f.typ with
      | message j => rw [hT.defaults idx m f j hm hfm ho ht] at hd; cases hd
      | _ => rfl
  · intro f hf
    obtain ⟨b, hb, h⟩ := mapM_covers hts f hf
    obtain ⟨U, hU, rfl⟩ := Option.map_eq_some_iff.mp h
    exact ⟨U, hU, _, hP, U, List.mem_append_left _ hb, rfl⟩
  · intro o ho
    obtain ⟨b, hb, h⟩ := mapM_covers hos o ho
    obtain ⟨l, hl, rfl⟩ := Option.map_eq_some_iff.mp h
    obtain ⟨vs, hvs, hPo, _⟩ := G.oneofs idx m hm o ho
    refine ⟨⟨_, hP, _, List.mem_append_right _ hb, rfl⟩, ?_, ?_, ?_, ?_⟩
    · show (P.oneofs _).isSome = true
      rw [hPo]; rfl
    · intro f hf
      obtain ⟨b, hb, h⟩ := mapM_covers hvs f hf
      obtain ⟨T, hT, rfl⟩ := Option.map_eq_some_iff.mp h
      refine ⟨T, hT, vs, hPo, _, hb, ?_⟩
      cases f.boxed <;> rfl
    · rintro x u ⟨vs', hvs', v, hv, rfl⟩
      cases hPo.symm.trans hvs'
      obtain ⟨f, hf, h⟩ := mapM_members hvs _ hv
      obtain ⟨T, hT, h⟩ := Option.map_eq_some_iff.mp h
      exact ⟨f, hf, (Prod.mk.inj h).1.symm⟩
    · exact (hin (.inr o) (List.mem_append_right _ (List.mem_map.mpr ⟨o, ho, rfl⟩))).1

/-- The functions of every struct of a generated program have the types that Rust demands, if the schema has only keys of maps that Rust
can hash and compare, and if the texts of defaults have the types of their fields. -/
theorem C108_functions_partial (G : Generates C P dflt) (hS : SchemaOk C) (hK : PackedOk C) (hT : PlainTypes C.D)
    (hE : ∀ e en s, C.D.getEnum e = some en → en.fullyQualified.head? = some s → text (.adt (enumPath C.D en) false) s)
    (hL : ∀ i m, C.D.getMessage i = some m → ∀ f ∈ m.fields, ∀ s, f.default = some s → f.typ.asMessage = none → f.frequency.generated = .singular →
      text (litTy C.D C.cfg f.typ) s)
    {idx : MessageIndex} {m : Message} (hm : C.D.getMessage idx = some m) :
    ∃ s, P.structs (messagePath C.D m) = some s ∧ FunctionsOk (P.scope text (messagePath C.D m)) s := by
  obtain ⟨fs, size, write, read, db, hfs, hsize, hwrite, hread, hdb, hP⟩ := generated_def G hm
  have F := program_fits G hE (messagePath C.D m)
  have M := message_fits G hS hK hT hL hm
  refine ⟨_, hP, ?_, ?_, ?_, ?_⟩
  · intro b hb
    dsimp only at hb
    cases hu : m.isUnit with
    | true => rw [hu] at hb; cases hb
    | false => rw [hu] at hb; cases hb; exact size_body F M hsize
  · intro b hb
    dsimp only at hb
    cases hu : m.isUnit with
    | true => rw [hu] at hb; cases hb
    | false => rw [hu] at hb; cases hb; exact write_body F M hwrite
  · dsimp only
    cases hu : m.isUnit with
    | true => exact unit_read_body M.self
    | false => exact read_body F M hread
  · intro l hl
    dsimp only at hl
    split at hl
    · cases hl
      exact default_fields F M hdb hfs
    · cases hl

end

/-- After a run of pb-rs that reports success: the text of the program with the functions that are printed type-checks. -/
theorem C108_run_partial {junk : Str} {n : Nat} {j : Job} {d d' : Disk} {D E : FileDescriptor} (hn : j.noOutput = false)
    (h : writeProto junk n j d = (.ok (), d')) (hr : readProtoFile d.file j.search n j.inFile = .ok D) (hf : NoNestedMaps D)
    (hN : Numbered D) (hK : NestedPackedOk D) (hE : j.compiled n d = some E)
    (hI : ∀ t ∈ E.messages, t.imported = true → ∃ x, t.write E j.cfg = .ok x) (hX : Distinct E j.cfg)
    (hcow : ∀ i m, E.getMessage i = some m → ∀ f ∈ m.fields, f.visible j.cfg = true → isPackedFixed f = true → j.cfg.dontUseCow = false)
    (F : Rounding) (hp : PlainDefaults F D) (hT : PlainTypes E) :
    ∃ (p : Str) (text : Doc) (P : Prog), j.out n d = some p ∧ d'.file p = some (Doc.str text) ∧
      ∀ i is t m, E.messages[i]? = some t → t.imported = false → E.getMessage (i :: is) = some m →
        ∃ s l, P.structs (messagePath E m) = some s ∧ HasStruct text m.name m.isUnit l (deprecations j.cfg m) s ∧
          (∀ o ∈ m.oneofs, ∃ l vs, P.oneofs (oneofPath E o) = some vs ∧
            HasOneof text o.name l ((o.shown j.cfg).map (·.deprecated)) vs) ∧
          FunctionsOk (P.scope (isText F E) (messagePath E m)) s := by
  have hL := C95_literals hr hf hE F hp hX
  obtain ⟨p, text, C, P, dflt, h1, h2, h3, h4, h5, h6, G, hD, hS, hPk, _, h7⟩ := run_program hn h hr hf hN hK hE hI hX hcow hL Target.debug64
  subst h4
  refine ⟨p, text, P, h1, h2, ?_⟩
  intro i is t m ht hi hm
  obtain ⟨s, l, hs, hh, ho⟩ := h7 i is t m ht hi hm
  obtain ⟨s', hs', hok⟩ := C108_functions_partial (text := isText F C.D) G hS hPk hT
    (fun e en s he hs => meaning_text (by rw [hL.first e en s he hs]; intro h; cases h))
    (fun i m hm f hf s hs hmsg hg => meaning_text (typed_ne (by rw [h5]; exact hL.typed i m hm f hf s hs hmsg hg C rfl))) hm
  cases hs.symm.trans hs'
  exact ⟨s, l, hs, hh, ho, hok⟩

/-! ## What cannot be typed -/

/-- If `from_reader` is well typed, so are the bodies of the arms for the fields. -/
theorem read_arms {D : FileDescriptor} {cfg : Config} {S : Scope} {m : Message} {b : Body} {t : ETy} (hb : readBody D cfg m = some b) (h : BodyOk S readLocals b t)
    {f : Field} (hf : f ∈ shownFields cfg m) :
    ∃ a Γ, matchTree D cfg f = some a ∧ Γ.vars .msg = some (.ty (.adt S.self false)) ∧ ArmOk S Γ a := by
  unfold readBody at hb
  obtain ⟨fs, hfs, hb⟩ := Option.bind_eq_some_iff.mp hb
  obtain ⟨os, hos, rfl⟩ := Option.map_eq_some_iff.mp hb
  obtain ⟨Γ', hst, _, _⟩ := h
  cases hst with
  | cons h1 h2 =>
    cases h1 with
    | letMut he _ =>
      cases he
      cases h2 with
      | cons h3 _ =>
        cases h3 with
        | whileMatch _ _ harms _ =>
          obtain ⟨x, hx, hxe⟩ := mapM_covers hfs f hf
          unfold fieldArm at hxe
          obtain ⟨a, ha, rfl⟩ := Option.map_eq_some_iff.mp hxe
          obtain ⟨Γ2, hbd, harm⟩ := harms _ (List.mem_append_left _ (List.mem_append_left _ hx))
          cases hbd with
          | ok hbd =>
            cases hbd
            exact ⟨a, _, ha, rfl, harm⟩

/-- The type of a field of a struct. -/
theorem field_only {D : FileDescriptor} {cfg : Config} {P : Prog} {text : Ty → Str → Prop} {m : Message} {s : StructDef} {p : Path} (hs : structDef D cfg m = some s)
    (hP : P.structs p = some s) (hn : (s.fields.map (·.1)).Nodup) {f : Field} (hf : f ∈ shownFields cfg m) {t : Ty} (h : (P.scope text p).field p f.name t) :
    ∃ U, fieldTy D cfg f = some U ∧ t = U.erase := by
  obtain ⟨fs, hfs, hs⟩ := Option.bind_eq_some_iff.mp hs
  obtain ⟨size, hsize, hs⟩ := Option.bind_eq_some_iff.mp hs
  obtain ⟨wb, hwb, hs⟩ := Option.bind_eq_some_iff.mp hs
  obtain ⟨rb, hrb, hs⟩ := Option.bind_eq_some_iff.mp hs
  obtain ⟨db, hdb, rfl⟩ := Option.map_eq_some_iff.mp hs
  unfold structFields at hfs
  obtain ⟨ts, hts, hfs⟩ := Option.bind_eq_some_iff.mp hfs
  obtain ⟨os, hos, rfl⟩ := Option.map_eq_some_iff.mp hfs
  obtain ⟨b, hb, hbe⟩ := mapM_covers hts f hf
  obtain ⟨U, hU, rfl⟩ := Option.map_eq_some_iff.mp hbe
  obtain ⟨s', hs', u, hu, rfl⟩ := h
  cases hP.symm.trans hs'
  refine ⟨U, hU, ?_⟩
  have h1 : (f.name, U) ∈ ts ++ os := List.mem_append_left _ hb
  have key : ∀ {l : List (Str × Ty)}, (l.map (·.1)).Nodup → ∀ {x : Str} {a b : Ty}, (x, a) ∈ l → (x, b) ∈ l → a = b := by
    intro l
    induction l with
    | nil => intro _ x a b h; cases h
    | cons y l ih =>
      intro hn x a b ha hb
      rw [List.map_cons, List.nodup_cons] at hn
      rcases List.mem_cons.mp ha with rfl | ha'
      · rcases List.mem_cons.mp hb with h | hb
        · exact (Prod.mk.inj h).2.symm
        · exact absurd (List.mem_map.mpr ⟨(x, b), hb, rfl⟩ : x ∈ l.map (·.1)) hn.1
      · rcases List.mem_cons.mp hb with h | hb
        · subst h
          exact absurd (List.mem_map.mpr ⟨(x, a), ha', rfl⟩ : x ∈ l.map (·.1)) hn.1
        · exact ih hn.2 ha' hb
  rw [key hn hu h1]

section
variable {D : FileDescriptor} {cfg : Config} {P : Prog} {text : Ty → Str → Prop} {m : Message} {s : StructDef} {p : Path}

theorem read_of {f : Field} (hs : structDef D cfg m = some s) (hf : f ∈ shownFields cfg m) : readBody D cfg m = some s.read := by
  obtain ⟨fs, hfs, hs⟩ := Option.bind_eq_some_iff.mp hs
  obtain ⟨size, hsize, hs⟩ := Option.bind_eq_some_iff.mp hs
  obtain ⟨wb, hwb, hs⟩ := Option.bind_eq_some_iff.mp hs
  obtain ⟨rb, hrb, hs⟩ := Option.bind_eq_some_iff.mp hs
  obtain ⟨db, hdb, rfl⟩ := Option.map_eq_some_iff.mp hs
  have hu : m.isUnit = false := by
    have hm : f ∈ m.fields := List.mem_of_mem_filter hf
    obtain ⟨name, fields, oneofs, rn, rs, imp, pk, ms, es, md, ix⟩ := m
    cases fields with
    | nil => cases hm
    | cons _ _ => rfl
  simp only [hu]
  exact hrb

/-- Maps with other keys than those of `PlainTypes` do not type-check, whatever else is in the program: `HashMap::insert` needs keys that
can be hashed and compared. -/
theorem C108_keys_needed (hs : structDef D cfg m = some s) (hP : P.structs p = some s) (hn : (s.fields.map (·.1)).Nodup)
    {f : Field} (hf : f ∈ shownFields cfg m) (hb : f.boxed = false) (hg : f.frequency.generated = .map) {k v : FieldType} (ht : f.typ = .map k v)
    (h : FunctionsOk (P.scope text p) s) : keyType k = true := by
  obtain ⟨a, Γ, ha, hmsg, hok⟩ := read_arms (read_of hs hf) h.read hf
  unfold matchTree at ha
  simp only [hb, Bool.false_eq_true, if_false, hg, ht] at ha
  obtain ⟨kt, hkt, ha⟩ := Option.bind_eq_some_iff.mp ha
  obtain ⟨vt, hvt, ha⟩ := Option.bind_eq_some_iff.mp ha
  obtain ⟨ke, hke, ha⟩ := Option.bind_eq_some_iff.mp ha
  obtain ⟨ve, hve, rfl⟩ := Option.map_eq_some_iff.mp ha
  cases hok with
  | insert _ hx hfield hkey =>
    cases hx.symm.trans hmsg
    obtain ⟨U, hU, hUe⟩ := field_only hs hP hn hf hfield
    unfold fieldTy at hU
    simp only [hb, Bool.false_eq_true, if_false, ht, hg, tyOf, hkt, hvt, Option.bind_some, Option.map_some, Option.some.injEq] at hU
    subst hU
    cases hUe
    cases k <;> first | rfl | (cases hkt; cases hkey; done) | (cases hkt; done) | skip
    · obtain ⟨en, _, rfl⟩ := tyOf_enu hkt
      cases hkey
    · obtain ⟨m', l, _, rfl⟩ := tyOf_msg hkt
      cases hkey
    · obtain ⟨_, _, hkt⟩ := Option.bind_eq_some_iff.mp hkt
      obtain ⟨_, _, rfl⟩ := Option.map_eq_some_iff.mp hkt
      cases hkey

/-- With `--dont_use_cow` packed fields of numbers of a fixed size do not type-check: `read_packed_fixed` returns a `PackedFixed`, the field
is a `Vec`. -/
theorem C108_cow_needed (hs : structDef D cfg m = some s) (hP : P.structs p = some s) (hn : (s.fields.map (·.1)).Nodup)
    {f : Field} (hf : f ∈ shownFields cfg m) (hb : f.boxed = false) (hg : f.frequency.generated = .arrayLike) (hk : isPackedFixed f = true) (h : FunctionsOk (P.scope text p) s) :
    cfg.dontUseCow = false := by
  obtain ⟨a, Γ, ha, hmsg, hok⟩ := read_arms (read_of hs hf) h.read hf
  unfold isPackedFixed at hk
  simp only [Bool.and_eq_true] at hk
  unfold matchTree at ha
  simp only [hb, Bool.false_eq_true, if_false, hg, hk.1, hk.2, if_true] at ha
  obtain ⟨T, hT, ha⟩ := Option.bind_eq_some_iff.mp ha
  obtain ⟨e, he, rfl⟩ := Option.map_eq_some_iff.mp ha
  cases hok with
  | simple hok =>
    cases hok with
    | assign hx hfield hhas _ =>
      cases hx.symm.trans hmsg
      obtain ⟨U, hU, hUe⟩ := field_only hs hP hn hf hfield
      cases hhas with
      | try_ _ hhas =>
        cases hhas with
        | readPackedFixed =>
          cases hc : cfg.dontUseCow with
          | false => rfl
          | true =>
            unfold fieldTy at hU
            simp only [hb, Bool.false_eq_true, if_false, hg, hT, hc, Bool.not_true, Bool.and_false, Option.map_some, Option.some.injEq] at hU
            subst hU
            cases hUe

/-- The text of a default of a required field must be an expression of the type of the field. -/
theorem C108_default_needed (hs : structDef D cfg m = some s) (hP : P.structs p = some s) (hn : (s.fields.map (·.1)).Nodup)
    {f : Field} (hf : f ∈ shownFields cfg m) (hb : f.boxed = false) (hg : f.frequency.generated = .singular) (ho : f.frequency.isOptional = false)
    {d : Str} (hd : f.default = some d) (hm : m.mustGenerateImplDefault D cfg = true) (h : FunctionsOk (P.scope text p) s) :
    text (litTy D cfg f.typ) d := by
  have hs' := hs
  obtain ⟨fs, hfs, hs'⟩ := Option.bind_eq_some_iff.mp hs'
  obtain ⟨size, hsize, hs'⟩ := Option.bind_eq_some_iff.mp hs'
  obtain ⟨wb, hwb, hs'⟩ := Option.bind_eq_some_iff.mp hs'
  obtain ⟨rb, hrb, hs'⟩ := Option.bind_eq_some_iff.mp hs'
  obtain ⟨db, hdb, rfl⟩ := Option.map_eq_some_iff.mp hs'
  have hd' := h.default db (by simp only [hm, if_true])
  unfold defaultFields at hdb
  obtain ⟨ds, hds, rfl⟩ := Option.map_eq_some_iff.mp hdb
  obtain ⟨b, hb', hbe⟩ := mapM_covers hds f hf
  obtain ⟨e, he, rfl⟩ := Option.map_eq_some_iff.mp hbe
  obtain ⟨t, ht, hhas⟩ := hd'.2 _ _ (List.mem_append_left _ hb')
  obtain ⟨U, hU, hUe⟩ := field_only (text := text) hs hP hn hf (t := t.erase) ⟨_, hP, t, ht, rfl⟩
  unfold defaultTree at he
  simp only [hg, hb, ho, hd, Bool.false_eq_true, if_false] at he
  unfold litTy
  generalize t.erase = W at hhas
  revert he
  cases hty : f.typ <;> intro he <;> dsimp only at he ⊢ <;>
    first
    | (cases he; cases hhas with | toString_ h => cases h with | verbatim h => exact h)
    | (cases he; cases hhas with | toVec h => cases h with | verbatim h => exact h)
    | (obtain ⟨T, hT, rfl⟩ := Option.map_eq_some_iff.mp he; rw [hT]; cases hhas with | verbatim h => exact h)

end

/-! ## Runs -/

namespace TypingExample
open RunExample

/-- A file with one message, which has one field and no oneof: the field, after the run. -/
def single (j : Job) (d : Disk) : Option Field :=
  (j.compiled 1 d).bind fun E => (E.messages[0]?).bind fun m => match m.fields with
    | [f] => if m.imported = false ∧ m.oneofs = [] ∧ f.visible j.cfg = true then some f else none
    | _ => none

/-- What is checked of the schema that is read. -/
def flatB (D : FileDescriptor) : Bool :=
  decide (∀ p ∈ Message.preorderAll [] 0 D.messages, ∀ f ∈ p.2.allFields, f.typ.flat = true)

/-- The struct that a run prints for such a file. -/
theorem single_struct {j : Job} {d : Disk} {f : Field} (hn : j.noOutput = false) (hw : (writeProto [] 1 j d).1.isOk = true)
    (hr : (match readProtoFile d.file j.search 1 j.inFile with | .ok D => flatB D | .error _ => false) = true) (hs : single j d = some f) :
    ∃ E m s p text l, j.compiled 1 d = some E ∧ E.getMessage [0] = some m ∧ (writeProto [] 1 j d).2.file p = some (Doc.str text) ∧
      structDef E j.cfg m = some s ∧ HasStruct text m.name m.isUnit l (deprecations j.cfg m) s ∧ (s.fields.map (·.1)).Nodup ∧
      m.fields = [f] ∧ f ∈ shownFields j.cfg m := by
  cases hD : readProtoFile d.file j.search 1 j.inFile with
  | error e => rw [hD] at hr; cases hr
  | ok D =>
    rw [hD] at hr
    have hr : flatB D = true := hr
    unfold flatB at hr
    have hr := of_decide_eq_true hr
    cases hww : writeProto [] 1 j d with
    | mk r d' =>
      rw [hww] at hw
      cases r with
      | error e => cases hw
      | ok u =>
        obtain ⟨p, E, text, hp, hE, hd, hitems⟩ := C77_written hn hww hD (fun i m hm f hf => hr (i, m) ((mem_preorder_file D i m).mpr hm) f hf)
        unfold single at hs
        rw [hE] at hs
        obtain ⟨E', hE', hs⟩ := Option.bind_eq_some_iff.mp hs
        cases hE'
        obtain ⟨m, hm, hs⟩ := Option.bind_eq_some_iff.mp hs
        have hget : E.getMessage [0] = some m := by
          simp only [FileDescriptor.getMessage, hm]
          rfl
        cases hfs : m.fields with
        | nil => simp only [hfs] at hs; cases hs
        | cons g l =>
          cases l with
          | cons _ _ => simp only [hfs] at hs; cases hs
          | nil =>
            simp only [hfs] at hs
            split at hs
            · rename_i hc
              obtain ⟨c1, c2, c3⟩ := hc
              cases hs
              obtain ⟨s, l, h1, _, h2, _⟩ := hitems 0 [] m m hm c1 hget
              refine ⟨E, m, s, p, text, l, hE, hget, hd, h1, h2, ?_, hfs, ?_⟩
              · obtain ⟨fs, hfs', h1⟩ := Option.bind_eq_some_iff.mp h1
                obtain ⟨size, hsize, h1⟩ := Option.bind_eq_some_iff.mp h1
                obtain ⟨wb, hwb, h1⟩ := Option.bind_eq_some_iff.mp h1
                obtain ⟨rb, hrb, h1⟩ := Option.bind_eq_some_iff.mp h1
                obtain ⟨db, hdb, rfl⟩ := Option.map_eq_some_iff.mp h1
                have hsh : shownFields j.cfg m = [f] := by unfold shownFields; rw [hfs]; simp [c3]
                unfold structFields at hfs'
                rw [hsh, c2] at hfs'
                obtain ⟨ts, hts, hfs'⟩ := Option.bind_eq_some_iff.mp hfs'
                obtain ⟨os, hos, rfl⟩ := Option.map_eq_some_iff.mp hfs'
                simp only [List.mapM_nil, Option.pure_def, Option.some.injEq] at hos
                subst hos
                simp only [List.mapM_cons, List.mapM_nil, Option.pure_def, Option.bind_eq_bind] at hts
                obtain ⟨a, ha, hts⟩ := Option.bind_eq_some_iff.mp hts
                cases hts
                simp
              · unfold shownFields
                rw [hfs]
                simp [c3]
            · cases hs

/-- C108 is false: a map with keys that cannot be hashed (the protocol buffer language does not allow it, pb-rs takes it). -/
theorem C108_refuted_key : ∃ (d : Disk) (j : Job) (E : FileDescriptor) (m : Message) (s : StructDef) (p : Str) (text : Doc) (l : Bool),
    d.file j.inFile = some (c! "message M { map<float, int32> a = 1; }") ∧
    j.cfg = {} ∧ (writeProto [] 1 j d).1.isOk = true ∧ j.compiled 1 d = some E ∧ E.getMessage [0] = some m ∧
    (writeProto [] 1 j d).2.file p = some (Doc.str text) ∧ HasStruct text m.name m.isUnit l (deprecations j.cfg m) s ∧
    ∀ (P : Prog) (texts : Ty → Str → Prop), P.structs (messagePath E m) = some s → ¬ FunctionsOk (P.scope texts (messagePath E m)) s := by
  have hs : single { inFile := c! "x.proto", outFile := c! "x.rs" } (disk [(c! "x.proto", c! "message M { map<float, int32> a = 1; }")] []) =
      some { name := c! "a", frequency := .p2map, typ := .map .float .int32, number := 1 } := by decide +kernel
  obtain ⟨E, m, s, p, text, l, h1, h2, h3, h4, h5, h6, h7, h8⟩ := single_struct rfl (by decide +kernel) (by decide +kernel) hs
  refine ⟨_, _, E, m, s, p, text, l, ?_, ?_, ?_, h1, h2, h3, h5, fun P texts hP h => ?_⟩
  · decide +kernel
  · rfl
  · decide +kernel
  · cases C108_keys_needed h4 hP h6 h8 rfl rfl rfl h

/-- C108 is false with `--dont_use_cow`. -/
theorem C108_refuted_cow : ∃ (d : Disk) (j : Job) (E : FileDescriptor) (m : Message) (s : StructDef) (p : Str) (text : Doc) (l : Bool),
    d.file j.inFile = some (c! "message M { repeated fixed32 ys = 4 [packed = true]; }") ∧
    j.cfg = { dontUseCow := true } ∧ (writeProto [] 1 j d).1.isOk = true ∧ j.compiled 1 d = some E ∧ E.getMessage [0] = some m ∧
    (writeProto [] 1 j d).2.file p = some (Doc.str text) ∧ HasStruct text m.name m.isUnit l (deprecations j.cfg m) s ∧
    ∀ (P : Prog) (texts : Ty → Str → Prop), P.structs (messagePath E m) = some s → ¬ FunctionsOk (P.scope texts (messagePath E m)) s := by
  have hs : single { inFile := c! "x.proto", outFile := c! "x.rs", cfg := { dontUseCow := true } } (disk [(c! "x.proto", c! "message M { repeated fixed32 ys = 4 [packed = true]; }")] []) =
      some { name := c! "ys", frequency := .p2repeated, typ := .fixed32, number := 4, packed := some true } := by decide +kernel
  obtain ⟨E, m, s, p, text, l, h1, h2, h3, h4, h5, h6, h7, h8⟩ := single_struct rfl (by decide +kernel) (by decide +kernel) hs
  refine ⟨_, _, E, m, s, p, text, l, ?_, ?_, ?_, h1, h2, h3, h5, fun P texts hP h => ?_⟩
  · decide +kernel
  · rfl
  · decide +kernel
  · cases C108_cow_needed h4 hP h6 h8 rfl rfl rfl h

/-- C108 is false for a default that is no literal of Rust. -/
theorem C108_refuted_default (F : Rounding) : ∃ (d : Disk) (j : Job) (E : FileDescriptor) (m : Message) (s : StructDef) (p : Str) (text : Doc) (l : Bool),
    d.file j.inFile = some (c! "message M { required float a = 1 [default = .5]; }") ∧
    j.cfg = {} ∧ (writeProto [] 1 j d).1.isOk = true ∧ j.compiled 1 d = some E ∧ E.getMessage [0] = some m ∧
    (writeProto [] 1 j d).2.file p = some (Doc.str text) ∧ HasStruct text m.name m.isUnit l (deprecations j.cfg m) s ∧
    ∀ (P : Prog), P.structs (messagePath E m) = some s → ¬ FunctionsOk (P.scope (isText F E) (messagePath E m)) s := by
  have hs : single { inFile := c! "x.proto", outFile := c! "x.rs" } (disk [(c! "x.proto", c! "message M { required float a = 1 [default = .5]; }")] []) =
      some { name := c! "a", frequency := .p2required, typ := .float, number := 1, default := some (c! ".5f32") } := by decide +kernel
  obtain ⟨E, m, s, p, text, l, h1, h2, h3, h4, h5, h6, h7, h8⟩ := single_struct rfl (by decide +kernel) (by decide +kernel) hs
  refine ⟨_, _, E, m, s, p, text, l, ?_, ?_, ?_, h1, h2, h3, h5, fun P hP h => ?_⟩
  · decide +kernel
  · rfl
  · decide +kernel
  · have hsy : (Job.compiled 1 { inFile := c! "x.proto", outFile := c! "x.rs" } (disk [(c! "x.proto", c! "message M { required float a = 1 [default = .5]; }")] [])).map
        (·.syntax_) = some .proto2 := by decide +kernel
    rw [h1] at hsy
    have hsy : E.syntax_ = .proto2 := Option.some.inj hsy
    have := C108_default_needed h4 hP h6 h8 rfl rfl rfl rfl (by
      unfold Message.mustGenerateImplDefault
      rw [h7]
      simp [Field.mustGenerateImplDefault, Field.hasValidVisibleCustomDefault, hsy, Field.visible, FieldType.asMessage]) h
    have hz : (litValue F .f32 (c! ".5f32")).isSome = false := rfl
    have this : (litValue F .f32 (c! ".5f32")).isSome = true := this
    rw [hz] at this
    cases this

/-- A file with a custom default, a packed fixed-size field, a map, a recursive message, an enum, a nested message and a oneof. -/
def src : Str := c! "enum Color { RED = 3; BLUE = 5; } message Node { required int32 id = 1 [default = -8]; optional string name = 2; repeated fixed32 ys = 4 [packed = true]; map<string, Color> props = 6; optional Node child = 7; required Color kind = 9 [default = BLUE]; required Inner inner = 10; message Inner { optional bytes v = 1; } oneof pick { bool a = 16; Node b = 17; } }"
def job : Job := { inFile := c! "ex.proto", outFile := c! "ex.rs" }
def before : Disk := disk [(c! "ex.proto", src)] []

/-- What is checked of the schema that is read. -/
def okD (D : FileDescriptor) : Bool :=
  GeneratedExample.okRead D &&
  decide (∀ p ∈ enumList D, sanitizeKeyword p.2.name = p.2.name ∧ (∀ v ∈ p.2.fields, sanitizeKeyword v.1 = v.1) ∧ [] ∉ splitDot p.2.module ∧
    (c! "BLUE") ∈ p.2.fields.map (·.1)) &&
  decide (∀ p ∈ Message.preorderAll [] 0 D.messages, ∀ f ∈ p.2.fields, ∀ d, f.default = some d →
    f.typ = .int32 ∧ d = c! "-8" ∨ FieldType.scalar f.typ = false ∧ d = c! "BLUE")

/-- Whether a field is as `PlainTypes` wants it. -/
def plainField (f : Field) : Bool :=
  (match f.typ with
  | .map k _ => keyType k
  | .message _ => f.frequency.isOptional || f.default.isNone
  | _ => true)

/-- And of the one that is printed. -/
def okE (E : FileDescriptor) : Bool :=
  distinctB E {} && decide (∀ t ∈ E.messages, t.imported = false) &&
  decide (∀ p ∈ Message.preorderAll [] 0 E.messages, ∀ f ∈ p.2.fields, plainField f = true) &&
  decide (((E.getMessage [0]).map fun m => m.fields.length) = some 7)

/-- The hypotheses of `C108_run_partial` are met. -/
theorem C108_example (F : Rounding) : ∃ D E d', writeProto [] 1 job before = (.ok (), d') ∧ readProtoFile before.file job.search 1 job.inFile = .ok D ∧
    NoNestedMaps D ∧ Numbered D ∧ NestedPackedOk D ∧ job.compiled 1 before = some E ∧
    (∀ t ∈ E.messages, t.imported = true → ∃ x, t.write E job.cfg = .ok x) ∧ Distinct E job.cfg ∧
    (∀ i m, E.getMessage i = some m → ∀ f ∈ m.fields, f.visible job.cfg = true → isPackedFixed f = true → job.cfg.dontUseCow = false) ∧
    PlainDefaults F D ∧ PlainTypes E ∧ ∃ m, E.getMessage [0] = some m ∧ m.fields.length = 7 := by
  have h0 : (writeProto [] 1 job before).1.isOk = true := by decide +kernel
  have h1 : (match readProtoFile before.file job.search 1 job.inFile with | .ok D => okD D | .error _ => false) = true := by decide +kernel
  have h2 : (match job.compiled 1 before with | some E => okE E | none => false) = true := by decide +kernel
  cases hD : readProtoFile before.file job.search 1 job.inFile with
  | error e => rw [hD] at h1; cases h1
  | ok D =>
    rw [hD] at h1
    cases hE : job.compiled 1 before with
    | none => rw [hE] at h2; cases h2
    | some E =>
      rw [hE] at h2
      cases hw : writeProto [] 1 job before with
      | mk r d' =>
        rw [hw] at h0
        cases r with
        | error e => cases h0
        | ok u =>
          have h1 : okD D = true := h1
          have h2 : okE E = true := h2
          unfold okD GeneratedExample.okRead at h1
          unfold okE at h2
          simp only [Bool.and_eq_true, decide_eq_true_eq] at h1 h2
          obtain ⟨⟨⟨a1, a2⟩, a3⟩, a4⟩ := h2
          obtain ⟨⟨b1, b2⟩, b3⟩ := h1
          have b1 := fun i m hm => b1 (i, m) ((mem_preorder_file D i m).mpr hm)
          have hkept : ∀ e en, D.getEnum e = some en → EnumKept en := fun e en he =>
            ⟨(b2 _ (mem_enumList he)).1, (b2 _ (mem_enumList he)).2.1, (b2 _ (mem_enumList he)).2.2.1⟩
          have hdf := fun i m (hm : D.getMessage i = some m) => b3 (i, m) ((mem_preorder_file D i m).mpr hm)
          have hpl := fun i m (hm : E.getMessage i = some m) => a3 (i, m) ((mem_preorder_file E i m).mpr hm)
          refine ⟨D, E, d', rfl, rfl, fun i m hm => (b1 i m hm).1, ⟨fun i m hm => (b1 i m hm).2.1, fun i m hm => (b1 i m hm).2.2.1⟩,
            fun i m hi hm f hf hp => absurd hp ((b1 i m hm).2.2.2 hi f hf), rfl, fun t ht hi => ?_, distinct_of a1, fun _ _ _ _ _ _ _ => rfl, ⟨hkept, ?_, ?_⟩, ⟨?_, ?_⟩, ?_⟩
          · rw [a2 t ht] at hi; cases hi
          · intro i m f d hm hf hd hs
            rcases hdf i m hm f hf d hd with ⟨ht, rfl⟩ | ⟨ht, _⟩
            · rw [ht]
              refine ⟨_, .s32 _ _ (-8) (.inl rfl) (.minus (c! "8") 8 (.decimal (c! "8") ⟨by decide, by decide⟩ (by decide))) (by decide) (by decide), by decide +kernel⟩
            · rw [ht] at hs; cases hs
          · intro i m f d e en hm hf hd hres he
            rcases hdf i m hm f hf d hd with ⟨ht, rfl⟩ | ⟨_, rfl⟩
            · rw [ht] at hres; cases hres
            · obtain ⟨v, hv, hvb⟩ := List.mem_map.mp (b2 _ (mem_enumList he)).2.2.2
              exact ⟨v.2, by rw [← hvb]; exact hv⟩
          · intro i m f k v hm hf ht
            have := hpl i m hm f hf
            unfold plainField at this
            rw [ht] at this
            exact this
          · intro i m f k hm hf ho ht
            have := hpl i m hm f hf
            unfold plainField at this
            rw [ht, ho] at this
            exact Option.isNone_iff_eq_none.mp this
          · obtain ⟨m, hm, hl⟩ := Option.map_eq_some_iff.mp a4
            exact ⟨m, hm, hl⟩

end TypingExample

end QP.Rust
