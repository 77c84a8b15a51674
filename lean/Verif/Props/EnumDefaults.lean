import Verif.Proofs.EnumDefaults
import Verif.Props.Defaults
import Verif.Props.Paths
set_option linter.unusedVariables false
/-!
# Enum defaults name the value that is meant (C95)
-/

namespace QP.Rust
open QP.Pbrs QP.Gen Spec

theorem printed_getEnum {D : FileDescriptor} {cfg : Config} (e : EnumIndex) : (D.printed cfg).getEnum e = D.getEnum e := by
  unfold FileDescriptor.printed
  split <;> rfl

/-- The enums of a run. -/
theorem enum_compiled {n : Nat} {j : Job} {d : Disk} {D E : FileDescriptor} (hr : readProtoFile d.file j.search n j.inFile = .ok D)
    (hE : j.compiled n d = some E) {e : EnumIndex} {en : Enumerator} (he : E.getEnum e = some en) :
    ∃ en0, D.getEnum e = some en0 ∧ en.core = en0.core.sanitizeNames := by
  obtain ⟨D', hc, rfl⟩ := compiled_compile hr hE
  rw [printed_getEnum] at he
  have h := compile_getEnum hc e
  rw [he] at h
  obtain ⟨en0, h1, h2⟩ := Option.map_eq_some_iff.mp h.symm
  exact ⟨en0, h1, h2.symm⟩

theorem resolves_owned {D : FileDescriptor} {b : Bool} {m : Message} {t t' : FieldType} (h : ResolvesTo { D with owned := b } m t t') :
    ResolvesTo D m t t' := by
  have hd : Pbrs.Declares { D with owned := b } = Pbrs.Declares D := by
    funext n t
    refine propext ⟨fun h => ?_, fun h => ?_⟩
    · cases h with
      | message i m h1 h2 => exact .message i m h1 h2
      | nested i m k e h1 h2 h3 => exact .nested i m k e h1 h2 h3
      | top k e h1 h2 => exact .top k e h1 h2
    · cases h with
      | message i m h1 h2 => exact .message i m h1 h2
      | nested i m k e h1 h2 h3 => exact .nested i m k e h1 h2 h3
      | top k e h1 h2 => exact .top k e h1 h2
  have hr : ResolvesTo { D with owned := b } = ResolvesTo D := by
    funext m t t'
    unfold ResolvesTo ResolvesOne Means
    rw [hd]
  rw [hr] at h
  exact h

/-- What pb-rs writes for the values of an enum (it writes that of the first value, as the default of fields of that type) is the path of
the enum in the crate, then the name of the variant, if it changes none of these names. -/
theorem C95_standard_partial {n : Nat} {j : Job} {d : Disk} {D E : FileDescriptor} (hr : readProtoFile d.file j.search n j.inFile = .ok D)
    (hE : j.compiled n d = some E) {e : EnumIndex} {en0 en : Enumerator} (he0 : D.getEnum e = some en0) (hk : EnumKept en0)
    (he : E.getEnum e = some en) {k : Nat} {v : Str} {num : Int} (hv : en.fields[k]? = some (v, num)) :
    en0.fields[k]? = some (v, num) ∧ en.fullyQualified[k]? = some (pathText (fullPath en ++ [v])) := by
  obtain ⟨en0', h1, h2⟩ := enum_compiled hr hE he
  cases he0.symm.trans h1
  obtain ⟨a, b, c, _, f⟩ := kept_enum hk h2
  obtain ⟨q1, q2⟩ := readProtoFile_qualified n hr
  have hv0 : en0.fields[k]? = some (v, num) := by rw [← b]; exact hv
  refine ⟨hv0, ?_⟩
  have := qualified_text (getEnum_qualified q1 q2 he0) hk.module hv0
  rw [f, this]
  unfold fullPath
  rw [a, c]

/-- A custom default of a field that holds an enum: the path of the enum, as the field's type is written (with `--single-mod`: the path in
the crate), then the name of the value. -/
theorem C95_custom_partial {n : Nat} {j : Job} {d : Disk} {D E : FileDescriptor} (hr : readProtoFile d.file j.search n j.inFile = .ok D)
    (hE : j.compiled n d = some E) {i : MessageIndex} {m : Message} {k : Nat} {f : Field} {s : Str}
    (hm : D.getMessage i = some m) (hf : m.fields[k]? = some f) (hs : f.default = some s)
    {m' : Message} {f' : Field} (hm' : E.getMessage i = some m') (hf' : m'.fields[k]? = some f') {e : EnumIndex} (ht : f'.typ = .enum e)
    {en0 en : Enumerator} (he0 : D.getEnum e = some en0) (hk : EnumKept en0) (he : E.getEnum e = some en) :
    ResolvesTo D m f.typ (.enum e) ∧ ∃ p, f'.default = some (pathText (p ++ [s])) ∧ (j.cfg.singleModule = false → p = enumPath E en) ∧
      (p = enumPath E en ∨ p = fullPath en) := by
  obtain ⟨en0', h1, h2⟩ := enum_compiled hr hE he
  cases he0.symm.trans h1
  obtain ⟨a, b, c, im, _⟩ := kept_enum hk h2
  obtain ⟨D', hc, rfl⟩ := compiled_compile hr hE
  obtain ⟨D1, D2, D3, D4, H, S, hv, hH⟩ := compile_fields hc
  have hm0 : ({ D with owned := j.cfg.owned } : FileDescriptor).getMessage i = some m := hm
  have hfm : f ∈ m.fields := List.mem_of_getElem? hf
  obtain ⟨hfc, hd, hn⟩ := hH i m hm0 f (List.mem_append_left _ hfm)
  rw [printed_get] at hm'
  obtain ⟨m2, hm2, hfs, _⟩ := hv.message_fwd hm0
  cases hm'.symm.trans hm2
  have hff : f' = H i f := by
    rw [hfs, List.getElem?_map, hf] at hf'
    exact (Option.some.inj hf').symm
  subst hff
  have hres : ResolvesTo D m f.typ (.enum e) := by
    obtain ⟨t, r1, r2⟩ := hfc.typ
    rw [ht] at r2
    have : t = .enum e := by
      cases hcow : j.cfg.dontUseCow
      · rw [hcow] at r2; exact r2.symm
      · rw [hcow] at r2
        cases t <;> first | exact r2.symm | (cases r2; done)
    rw [← this]; exact resolves_owned r1
  refine ⟨hres, ?_⟩
  -- the enum when the defaults are set
  have hsh := stage3_shells S
  have hen := hsh.getEnum e
  rw [show ({ D with owned := j.cfg.owned } : FileDescriptor).getEnum e = some en0 from he0] at hen
  obtain ⟨en3, he3, hen3⟩ := Option.map_eq_some_iff.mp hen
  have x1 := congrArg Enumerator.name hen3
  have x1 : en3.name = en0.name := x1
  have x2 := congrArg Enumerator.module hen3
  have x2 : en3.module = en0.module := x2
  have x3 := congrArg Enumerator.imported hen3
  have x3 : en3.imported = en0.imported := x3
  have x4 := congrArg FileDescriptor.package hsh.2.2
  have x4 : D3.package = D.package := x4
  have htext : typePath j.cfg D3 (.enum e) = pathText (enumPath D3 en3) := by
    unfold typePath pathText FieldType.typeText
    rw [he3, enum_path]
    rfl
  have hdef : (H i f).default = some (pathText (enumPath D3 en3 ++ [s])) := by
    rw [hd, hs, ht]
    show some (rewritten _ _ _) = _
    unfold rewritten sanitizeText
    simp only [htext]
    rw [pathText_append _ (by unfold enumPath; simp) (by simp), pathText_one]
    show some _ = some _
    simp
  have hpk : D'.package = D.package := by
    have := congrArg FileDescriptor.package (compile_shells hc).2.2
    exact this
  have hpath : j.cfg.singleModule = false → enumPath D3 en3 = enumPath (D'.printed j.cfg) en := by
    intro hsm
    unfold FileDescriptor.printed
    rw [hsm]
    unfold enumPath modulePath
    simp only [Bool.false_eq_true, if_false]
    rw [x1, x2, x3, a, c, im, x4, hpk]
  refine ⟨_, hdef, hpath, ?_⟩
  cases hsm : j.cfg.singleModule
  · exact Or.inl (hpath hsm)
  · cases hpe : D.package.isEmpty
    · right
      unfold enumPath modulePath fullPath segments
      rw [x1, x2, x4, a, c, hpe]
      rfl
    · left
      unfold FileDescriptor.printed
      rw [hsm]
      unfold enumPath modulePath
      simp only [if_true]
      rw [x1, x2, x3, a, c, im, x4, hpe]
      rfl

/-! ## The path denotes the enum -/

section
variable {D : FileDescriptor} {cfg : Config} {filename : Str} {services : Nat} {base : Path} {crate es : List Entry} {out file : Path}

/-- The path in the crate denotes the enum, in every place of the file, if the file is in the module named after its package or, without
one, after itself, and if the first name is not hidden. -/
theorem C95_denotes_partial (h : fileEntries D cfg filename services = some es) (hc : Clean es) (hL : Located D base)
    (hI : Installed D base crate es out file) (hb : file = base) {e : Enumerator} (he : e ∈ D.enums) (hi : e.imported = false)
    {q : Path} (hq : Spot D q) (hu : Unhidden es True q (fullPath e)) :
    ∃ x, enumEntry e = some x ∧ Denotes crate (out ++ file ++ q) (fullPath e) x := by
  obtain ⟨x, hx, hex⟩ := (file_parts h).2.2 e he hi
  refine ⟨x, hex, ?_⟩
  obtain ⟨_, rfl⟩ := enumEntry_item hex
  have hp : fullPath e = base ++ [e.name] := by unfold fullPath; rw [hL.enums e he hi]
  rw [hp] at hu ⊢
  refine denotes_outside hI.inside h (installed_length hI) hc hq ?_ List.getLast?_concat trivial hu
  rw [List.dropLast_concat, ← hb]
  exact declared_of hI.inside (hc [] es rfl) hx (List.mem_singleton.mpr rfl)

/-- The same for enums of messages. -/
theorem C95_denotes_nested_partial (h : fileEntries D cfg filename services = some es) (hc : Clean es) (hL : Located D base)
    (hI : Installed D base crate es out file) (hb : file = base) {idx : MessageIndex} {m : Message} (ho : Own D idx) (hm : D.getMessage idx = some m)
    {e : Enumerator} (he : e ∈ m.enums) {q : Path} (hq : Spot D q) (hu : Unhidden es True q (fullPath e)) :
    ∃ x, enumEntry e = some x ∧ Denotes crate (out ++ file ++ q) (fullPath e) x := by
  obtain ⟨ms, inn, hms, hinn, hin, _⟩ := inner_inside h hc ho hm (Or.inr (Or.inl (List.ne_nil_of_mem he)))
  obtain ⟨xs, ys, hxs, _, rfl⟩ := inner_parts hinn
  obtain ⟨x, hx, hex⟩ := mapM_all hxs e he
  obtain ⟨hi, hmod⟩ := hL.nested idx m ho hm e he
  refine ⟨x, hex, ?_⟩
  obtain ⟨_, rfl⟩ := enumEntry_item hex
  have hp : fullPath e = base ++ inner D idx ++ [e.name] := by unfold fullPath; rw [hmod]
  rw [hp] at hu ⊢
  refine denotes_outside hI.inside h (installed_length hI) hc hq ?_ List.getLast?_concat trivial hu
  rw [List.dropLast_concat, ← hb, ← List.append_assoc]
  exact declared_of (by rw [inside_append, hI.inside]; exact hin) (hc _ _ hin) (by simp [hx]) (List.mem_singleton.mpr rfl)

/-- Of imported enums the path in the crate is the one that is used for the type (so `C89_imported_enum_partial` is about it). -/
theorem C95_imported {e : Enumerator} (hi : e.imported = true) : fullPath e = enumPath D e := by
  unfold fullPath enumPath
  rw [hi, modulePath_imported]

end

/-! ## Programs -/

theorem mem_allEnums {D : FileDescriptor} {en : Enumerator} : en ∈ allEnums D ↔ ∃ e, D.getEnum e = some en := by
  constructor
  · intro h
    rcases List.mem_append.mp h with h | h
    · obtain ⟨k, hk⟩ := List.mem_iff_getElem?.mp h
      exact ⟨⟨[], k⟩, hk⟩
    · obtain ⟨⟨i, m⟩, hm, he⟩ := List.mem_flatMap.mp h
      obtain ⟨k, hk⟩ := List.mem_iff_getElem?.mp he
      have hm := (mem_preorder_file D i m).mp hm
      refine ⟨⟨i, k⟩, ?_⟩
      cases i with
      | nil => cases hm
      | cons a l =>
        simp only [FileDescriptor.getEnum, List.isEmpty_cons, Bool.false_eq_true, if_false]
        rw [hm]
        exact hk
  · rintro ⟨⟨i, k⟩, h⟩
    unfold FileDescriptor.getEnum at h
    cases i with
    | nil => exact List.mem_append_left _ (List.mem_of_getElem? h)
    | cons a l =>
      simp only [List.isEmpty_cons, Bool.false_eq_true, if_false] at h
      obtain ⟨m, hm, h⟩ := Option.bind_eq_some_iff.mp h
      exact List.mem_append_right _ (List.mem_flatMap.mpr ⟨(a :: l, m), (mem_preorder_file D _ _).mpr hm, List.mem_of_getElem? h⟩)

/-- The paths of different enums being different, the search goes through the variants of one enum. -/
theorem enumValue_eq {D : FileDescriptor} {cfg : Config} (hX : Distinct D cfg) {e : EnumIndex} {en : Enumerator} (he : D.getEnum e = some en) (s : Str) :
    enumValue D (enumPath D en) s =
      en.fields.findSome? fun v => if s = pathText (enumPath D en ++ [v.1]) ∨ s = pathText (fullPath en ++ [v.1]) then some v.2 else none := by
  unfold enumValue
  have hall : ∀ x ∈ (allEnums D).filter (fun e => enumPath D e = enumPath D en), x = en := by
    intro x hx
    obtain ⟨h1, h2⟩ := List.mem_filter.mp hx
    obtain ⟨e', he'⟩ := mem_allEnums.mp h1
    cases hX.enums _ _ _ _ he' he (of_decide_eq_true h2)
    exact Option.some.inj (he'.symm.trans he)
  have hmem : en ∈ (allEnums D).filter (fun e => enumPath D e = enumPath D en) :=
    List.mem_filter.mpr ⟨mem_allEnums.mpr ⟨e, he⟩, decide_eq_true rfl⟩
  generalize (allEnums D).filter (fun e => enumPath D e = enumPath D en) = l at hall hmem
  induction l with
  | nil => cases hmem
  | cons x l ih =>
    cases hall x (List.mem_cons_self ..)
    rw [List.findSome?_cons]
    cases hq : (en.fields.findSome? fun v => if s = pathText (enumPath D en ++ [v.1]) ∨ s = pathText (fullPath en ++ [v.1]) then some v.2 else none) with
    | some n => rfl
    | none =>
      dsimp only
      rw [List.findSome?_eq_none_iff]
      intro y hy
      cases hall y (List.mem_cons_of_mem _ hy)
      exact hq

theorem declares_hasType {F : Rounding} {t : FieldType} {d : Str} {x : RVal} (h : DeclaresDefault F t d x) (C : Ctx) (sub : MessageIndex → RVal → Prop) :
    HasType C sub t x := by
  cases h with
  | s32 t d i h => rcases h with rfl | rfl | rfl <;> exact ⟨_, rfl⟩
  | s64 t d i h => rcases h with rfl | rfl | rfl <;> exact ⟨_, rfl⟩
  | u32 t d n h => rcases h with rfl | rfl <;> exact ⟨_, rfl⟩
  | u64 t d n h => rcases h with rfl | rfl <;> exact ⟨_, rfl⟩
  | string t d b h h1 h2 => rcases h with rfl | rfl <;> exact ⟨_, rfl, h2⟩
  | bytes t d b h => rcases h with rfl | rfl <;> exact ⟨_, rfl⟩
  | _ => exact ⟨_, rfl⟩

theorem scalar_of_owned {t : FieldType} {b : Bool} (ht : FieldType.scalar (if b then t.owned else t) = true) : FieldType.scalar t = true := by
  cases b <;> cases t <;> first | (cases ht; done) | rfl

/-- In a run with defaults that Rust and the protocol buffer language read alike, the meaning of Rust's literals and paths is right about
what pb-rs wrote: every enum starts at its first value, every default has the type of its field. -/
theorem C95_literals {n : Nat} {j : Job} {d : Disk} {D E : FileDescriptor} (hr : readProtoFile d.file j.search n j.inFile = .ok D)
    (hf : NoNestedMaps D) (hE : j.compiled n d = some E) (F : Rounding) (hp : PlainDefaults F D) (hX : Distinct E j.cfg) :
    Literals E j.cfg (meaning F E) := by
  constructor
  · intro e en s he hs
    obtain ⟨en0, h1, h2⟩ := enum_compiled hr hE he
    have hk := hp.enums e en0 h1
    unfold meaning
    dsimp only
    rw [enumValue_eq hX he]
    cases hfs : en.fields with
    | nil =>
      obtain ⟨_, b, _, _, f⟩ := kept_enum hk h2
      obtain ⟨q1, q2⟩ := readProtoFile_qualified n hr
      have := getEnum_qualified q1 q2 h1
      unfold Enumerator.Qualified at this
      rw [f, this, ← b, hfs] at hs
      cases hs
    | cons v l =>
      have := (C95_standard_partial hr hE h1 hk he (k := 0) (v := v.1) (num := v.2) (by rw [hfs]; rfl)).2
      rw [List.head?_eq_getElem?, this] at hs
      cases hs
      rw [List.findSome?_cons, if_pos (Or.inr rfl)]
      rfl
  · intro idx m' hm' f' hf' s' hs' hmsg hfreq C hC
    obtain ⟨k, hk⟩ := List.mem_iff_getElem?.mp hf'
    obtain ⟨D', hc, rfl⟩ := compiled_compile hr hE
    have hP := parsed_owned j.cfg.owned (C68_parsed hr hf)
    have hm'' := hm'
    rw [printed_get] at hm''
    have hsane := (compile_sane hP hc hm'').fields f' hf'
    obtain ⟨D1, D2, D3, D4, H, S, hv, hH⟩ := compile_fields hc
    obtain ⟨m, hm, hfs, _⟩ := hv.message hm''
    have hk' := hk
    rw [hfs, List.getElem?_map] at hk'
    obtain ⟨f, hfk, hff⟩ := Option.map_eq_some_iff.mp hk'
    have hfm : f ∈ m.fields := List.mem_of_getElem? hfk
    obtain ⟨hfc, hd, hn⟩ := hH idx m hm f (List.mem_append_left _ hfm)
    rw [hff] at hd hfc
    rw [hs'] at hd
    cases hfd : f.default with
    | none => rw [hfd] at hd; cases hd
    | some s =>
      obtain ⟨t, r1, r2⟩ := hfc.typ
      have r1 := resolves_owned r1
      have hm0 : D.getMessage idx = some m := hm
      by_cases hsc : FieldType.scalar f.typ = true
      · obtain ⟨x, hx, hpl⟩ := hp.scalars idx m f s hm0 hfm hfd hsc
        obtain ⟨m2, f2, s2, y, g1, g2, g3, g4, g5, g6, g7, T, g8, g9⟩ := C94_value_partial hr hE F hm0 hfk hfd hx hpl
        cases hm'.symm.trans g1
        cases hk.symm.trans g2
        cases hs'.symm.trans g4
        have htyp : f'.typ = if j.cfg.dontUseCow then f.typ.owned else f.typ := by
          rw [scalar_resolves hsc r1] at r2
          exact r2
        have hy : DeclaresDefault F f'.typ s y := by rw [htyp]; exact (declares_owned hsc _).1.mpr g6
        have hsc' : FieldType.scalar f'.typ = true := by rw [htyp]; exact scalar_owned hsc _
        have hmean : meaning F (D'.printed j.cfg) (litTy (D'.printed j.cfg) j.cfg f'.typ) s' = y := by
          rw [(scalar_litTy hsc' _ _).1] at g5 ⊢
          cases hty : f'.typ <;> rw [hty] at g5 hsc' <;> first | (cases hsc'; done) | (unfold scalarTy meaning at *; simp only [g5]; rfl)
        rw [hmean]
        exact declares_hasType hy C _
      · have hnm : f'.typ.isMap = false := by
          rw [← hsane.map]
          revert hfreq
          unfold Frequency.generated
          cases f'.frequency <;> first | (intro h; rfl) | (intro h; cases h)
        have hraw := hP.raw idx m hm f (List.mem_append_left _ hfm)
        cases hft : f.typ with
        | map a b =>
          rw [hft] at r1
          obtain ⟨_, _, rfl, _⟩ := r1
          rw [r2] at hnm
          cases hcow : j.cfg.dontUseCow <;> rw [hcow] at hnm <;> cases hnm
        | messageOrEnum nm =>
          have r1' := r1
          rw [hft] at r1 hraw
          rcases resolvesOne_cases (resolvesTo_one rfl r1) hraw with ⟨i, rfl, _⟩ | ⟨e, rfl, he⟩ | ⟨rfl, h⟩
          · rw [r2] at hmsg
            cases hcow : j.cfg.dontUseCow <;> rw [hcow] at hmsg <;> cases hmsg
          · have hte : f'.typ = .enum e := by
              rw [r2]
              cases j.cfg.dontUseCow <;> rfl
            obtain ⟨en0, he0⟩ := Option.isSome_iff_exists.mp he
            have hcore := compile_getEnum hc e
            rw [show ({ D with owned := j.cfg.owned } : FileDescriptor).getEnum e = some en0 from he0] at hcore
            obtain ⟨en, hen, hcore⟩ := Option.map_eq_some_iff.mp hcore
            have hen : (D'.printed j.cfg).getEnum e = some en := by rw [printed_getEnum]; exact hen
            have hkept := hp.enums e en0 he0
            obtain ⟨_, p, hp1, _, hp2⟩ := C95_custom_partial hr hE hm0 hfk hfd hm' hk hte he0 hkept hen
            cases hs'.symm.trans hp1
            obtain ⟨num, hnum⟩ := hp.values idx m f s e en0 hm0 hfm hfd r1' he0
            rw [hte]
            have hlit : litTy (D'.printed j.cfg) j.cfg (.enum e) = .adt (enumPath (D'.printed j.cfg) en) false := by
              unfold litTy
              simp only [tyOf, hen]
              rfl
            rw [hlit]
            unfold meaning
            dsimp only
            rw [enumValue_eq hX hen]
            have hmem : (s, num) ∈ en.fields := by rw [(kept_enum hkept hcore).2.1]; exact hnum
            cases hq : (en.fields.findSome? fun v => if pathText (p ++ [s]) = pathText (enumPath (D'.printed j.cfg) en ++ [v.1]) ∨
                pathText (p ++ [s]) = pathText (fullPath en ++ [v.1]) then some v.2 else none) with
            | none =>
              have := List.findSome?_eq_none_iff.mp hq _ hmem
              rw [if_pos (by rcases hp2 with rfl | rfl; exact Or.inl rfl; exact Or.inr rfl)] at this
              cases this
            | some x =>
              obtain ⟨v, hv1, hv2⟩ := List.exists_of_findSome?_eq_some hq
              refine ⟨_, rfl, ?_⟩
              have hvx : v.2 = x := by
                split at hv2
                · exact Option.some.inj hv2
                · cases hv2
              unfold Ctx.enumNums
              rw [hC, hen]
              exact List.mem_map.mpr ⟨v, hv1, by rw [hvx]⟩
          · exact absurd rfl (h nm)
        | message i => rw [hft] at hraw; cases hraw
        | enum e => rw [hft] at hraw; cases hraw
        | _ => exact absurd (by rw [hft]; rfl) hsc

/-- The last name of a path can be read off its text. -/
theorem text_last {x y a b : Str} (ha : ':' ∉ a) (hb : ':' ∉ b) (h : x ++ ':' :: ':' :: a = y ++ ':' :: ':' :: b) : a = b := by
  have key : ∀ (l z : Str), ':' ∉ l → (z ++ ':' :: ':' :: l).reverse.takeWhile (· ≠ ':') = l.reverse := by
    intro l z hl
    rw [List.reverse_append, List.reverse_cons, List.append_assoc, List.reverse_cons, List.append_assoc]
    rw [List.takeWhile_append_of_pos]
    · simp
    · intro c hc
      have : c ≠ ':' := by rintro rfl; exact hl (List.mem_reverse.mp hc)
      simpa using this
  have := congrArg (fun l : Str => l.reverse.takeWhile (· ≠ ':')) h
  have this : (x ++ ':' :: ':' :: a).reverse.takeWhile (· ≠ ':') = (y ++ ':' :: ':' :: b).reverse.takeWhile (· ≠ ':') := this
  rw [key a x ha, key b y hb] at this
  exact List.reverse_injective this

theorem path_last {p q : Path} {a b : Str} (hp : p ≠ []) (hq : q ≠ []) (ha : ':' ∉ a) (hb : ':' ∉ b)
    (h : pathText (p ++ [a]) = pathText (q ++ [b])) : a = b := by
  rw [pathText_append _ hp (by simp), pathText_append _ hq (by simp), pathText_one, pathText_one] at h
  exact text_last ha hb (by simpa using h)

theorem findSome_unique {α : Type} {l : List (Str × α)} (hnd : (l.map (·.1)).Nodup) {v : Str × α} (hv : v ∈ l) {P : Str → Prop} [DecidablePred P]
    (hP : P v.1) (hu : ∀ w ∈ l, P w.1 → w.1 = v.1) : (l.findSome? fun w => if P w.1 then some w.2 else none) = some v.2 := by
  induction l with
  | nil => cases hv
  | cons w l ih =>
    rw [List.map_cons, List.nodup_cons] at hnd
    rw [List.findSome?_cons]
    by_cases hw : P w.1
    · rw [if_pos hw]
      have := hu w (List.mem_cons_self ..) hw
      rcases List.mem_cons.mp hv with rfl | hv
      · rfl
      · exact absurd (List.mem_map.mpr ⟨v, hv, this.symm⟩) hnd.1
    · rw [if_neg hw]
      rcases List.mem_cons.mp hv with rfl | hv
      · exact absurd hP hw
      · exact ih hnd.2 hv fun w' hw' => hu w' (List.mem_cons_of_mem _ hw')

/-- A custom default of a field that holds an enum is, in Rust, the number of the value that is named (if pb-rs changes none of the names). -/
theorem C95_value_partial {n : Nat} {j : Job} {d : Disk} {D E : FileDescriptor} (hr : readProtoFile d.file j.search n j.inFile = .ok D)
    (hE : j.compiled n d = some E) (F : Rounding) (hX : Distinct E j.cfg) {i : MessageIndex} {m : Message} {k : Nat} {f : Field} {s : Str}
    (hm : D.getMessage i = some m) (hf : m.fields[k]? = some f) (hs : f.default = some s)
    {m' : Message} {f' : Field} (hm' : E.getMessage i = some m') (hf' : m'.fields[k]? = some f') {e : EnumIndex} (ht : f'.typ = .enum e)
    {en0 : Enumerator} (he0 : D.getEnum e = some en0) (hk : EnumKept en0) (hnd : (en0.fields.map (·.1)).Nodup)
    (hc : ∀ v ∈ en0.fields, ':' ∉ v.1) {num : Int} (hnum : (s, num) ∈ en0.fields) :
    ∃ s', f'.default = some s' ∧ meaning F E (litTy E j.cfg f'.typ) s' = .w32 (BitVec.ofInt 32 num) := by
  obtain ⟨D', hcomp, rfl⟩ := compiled_compile hr hE
  have hcore := compile_getEnum hcomp e
  rw [show ({ D with owned := j.cfg.owned } : FileDescriptor).getEnum e = some en0 from he0] at hcore
  obtain ⟨en, hen, hcore⟩ := Option.map_eq_some_iff.mp hcore
  have hen : (D'.printed j.cfg).getEnum e = some en := by rw [printed_getEnum]; exact hen
  obtain ⟨_, p, hp1, _, hp2⟩ := C95_custom_partial hr hE hm hf hs hm' hf' ht he0 hk hen
  refine ⟨_, hp1, ?_⟩
  have hlit : litTy (D'.printed j.cfg) j.cfg f'.typ = .adt (enumPath (D'.printed j.cfg) en) false := by
    rw [ht]
    unfold litTy
    simp only [tyOf, hen]
    rfl
  rw [hlit]
  unfold meaning
  dsimp only
  rw [enumValue_eq hX hen, (kept_enum hk hcore).2.1]
  have ne1 : enumPath (D'.printed j.cfg) en ≠ [] := by unfold enumPath; simp
  have ne2 : fullPath en ≠ [] := by unfold fullPath; simp
  have nep : p ≠ [] := by rcases hp2 with rfl | rfl; exact ne1; exact ne2
  rw [findSome_unique (P := fun w => pathText (p ++ [s]) = pathText (enumPath (D'.printed j.cfg) en ++ [w]) ∨
    pathText (p ++ [s]) = pathText (fullPath en ++ [w])) hnd hnum]
  · rcases hp2 with rfl | rfl
    · exact Or.inl rfl
    · exact Or.inr rfl
  · rintro w hw (h | h)
    · exact (path_last nep ne1 (hc _ hnum) (hc _ hw) h).symm
    · exact (path_last nep ne2 (hc _ hnum) (hc _ hw) h).symm

/-- The round trip of a run, with the meaning of the defaults given: `C79_run_partial` for schemas with defaults that Rust and the protocol
buffer language read alike. -/
theorem C95_run_partial {junk : Str} {n : Nat} {j : Job} {d d' : Disk} {D E : FileDescriptor} (hn : j.noOutput = false)
    (h : writeProto junk n j d = (.ok (), d')) (hr : readProtoFile d.file j.search n j.inFile = .ok D) (hf : NoNestedMaps D)
    (hN : Numbered D) (hK : NestedPackedOk D) (hE : j.compiled n d = some E)
    (hI : ∀ t ∈ E.messages, t.imported = true → ∃ x, t.write E j.cfg = .ok x) (hX : Distinct E j.cfg)
    (hcow : ∀ i m, E.getMessage i = some m → ∀ f ∈ m.fields, f.visible j.cfg = true → isPackedFixed f = true → j.cfg.dontUseCow = false)
    (F : Rounding) (hp : PlainDefaults F D) (T : Target) (hT : T.bigEndian = false) :
    ∃ p text C P dflt, j.out n d = some p ∧ d'.file p = some (Doc.str text) ∧ C.T = T ∧ C.D = E ∧ C.cfg = j.cfg ∧ P.const = meaning F E ∧
      Generates C P dflt ∧ P.IsDefault T dflt ∧
      (∀ i is t m, E.messages[i]? = some t → t.imported = false → E.getMessage (i :: is) = some m →
        ∃ s l, P.structs (messagePath E m) = some s ∧ HasStruct text m.name m.isUnit l (deprecations j.cfg m) s ∧
          ∀ o ∈ m.oneofs, ∃ l vs, P.oneofs (oneofPath E o) = some vs ∧
            HasOneof text o.name l ((o.shown j.cfg).map (·.deprecated)) vs) ∧
      ∀ n idx m v, E.getMessage idx = some m → WellTyped C Plain n idx v →
        (P.writeImpl T dflt n (messagePath E m)).get_size v < 2 ^ 32 →
        sizeof_len ((P.writeImpl T dflt n (messagePath E m)).get_size v) < 2 ^ T.usizeBits →
        ∃ bytes, serialize_into_vec (P.writeImpl T dflt n (messagePath E m)) v = .ok bytes ∧
          ∀ fuel, bytes.length ≤ fuel → ∃ v',
            deserialize_from_slice T (P.fromReader T dflt fuel (messagePath E m)) bytes = .ok v' ∧ v'.obs = v.obs :=
  C79_run_partial hn h hr hf hN hK hE hI hX hcow (C95_literals hr hf hE F hp hX) T hT

/-! ## A run -/

namespace EnumDefaultsExample
open RunExample

def src : Str := c! "package p.q; enum E { A = 3; B = 5; } message M { optional E a = 1 [default = B]; required N.F b = 2 [default = B]; message N { enum F { A = 7; B = 9; } } required E c = 3; required sint32 d = 4 [default = -8]; }"
def job : Job := { inFile := c! "x.proto", outFile := c! "x.rs" }
def before : Disk := disk [(c! "x.proto", src)] []

/-- What is checked of the schema that is read. -/
def okD (D : FileDescriptor) : Bool :=
  GeneratedExample.okRead D &&
  decide (∀ p ∈ enumList D, sanitizeKeyword p.2.name = p.2.name ∧ (∀ v ∈ p.2.fields, sanitizeKeyword v.1 = v.1) ∧ [] ∉ splitDot p.2.module ∧
    (c! "B") ∈ p.2.fields.map (·.1)) &&
  decide (∀ p ∈ Message.preorderAll [] 0 D.messages, ∀ f ∈ p.2.fields, ∀ d, f.default = some d →
    f.typ = .sint32 ∧ d = c! "-8" ∨ FieldType.scalar f.typ = false ∧ d = c! "B") &&
  decide (((D.getMessage [0]).bind fun m => m.fields[0]?).map (fun f => (f.typ, f.default)) = some (.messageOrEnum (c! "E"), some (c! "B"))) &&
  decide ((D.getEnum ⟨[], 0⟩).map (·.fields) = some [(c! "A", 3), (c! "B", 5)])

/-- And of the one that is printed. -/
def okE (E : FileDescriptor) : Bool :=
  distinctB E {} && decide (∀ t ∈ E.messages, t.imported = false) &&
  decide (∀ p ∈ Message.preorderAll [] 0 E.messages, ∀ f ∈ p.2.fields, f.visible {} = true → isPackedFixed f = false) &&
  decide (((E.getMessage [0]).bind fun m => m.fields[0]?).map (fun f => (f.typ, f.default)) = some (.enum ⟨[], 0⟩, some (c! "p::q::E::B")))

/-- The hypotheses of `C95_value_partial` and of `C95_run_partial` are met, by defaults of top-level and nested enums. -/
theorem C95_example (F : Rounding) : ∃ D E d', writeProto [] 1 job before = (.ok (), d') ∧ readProtoFile before.file job.search 1 job.inFile = .ok D ∧
    NoNestedMaps D ∧ Numbered D ∧ NestedPackedOk D ∧ job.compiled 1 before = some E ∧
    (∀ t ∈ E.messages, t.imported = true → ∃ x, t.write E job.cfg = .ok x) ∧ Distinct E job.cfg ∧
    (∀ i m, E.getMessage i = some m → ∀ f ∈ m.fields, f.visible job.cfg = true → isPackedFixed f = true → job.cfg.dontUseCow = false) ∧
    PlainDefaults F D ∧
    (∃ m f en0 m' f', D.getMessage [0] = some m ∧ m.fields[0]? = some f ∧ f.default = some (c! "B") ∧ E.getMessage [0] = some m' ∧
      m'.fields[0]? = some f' ∧ f'.typ = .enum ⟨[], 0⟩ ∧ D.getEnum ⟨[], 0⟩ = some en0 ∧ EnumKept en0 ∧ (en0.fields.map (·.1)).Nodup ∧
      (∀ v ∈ en0.fields, ':' ∉ v.1) ∧ (c! "B", 5) ∈ en0.fields ∧ f'.default = some (c! "p::q::E::B")) := by
  have h0 : (writeProto [] 1 job before).1.isOk = true := by decide +kernel
  have h1 : (match readProtoFile before.file job.search 1 job.inFile with | .ok D => okD D | .error _ => false) = true := by decide +kernel
  have h2 : (match job.compiled 1 before with | some E => okE E | none => false) = true := by decide +kernel
  cases hD : readProtoFile before.file job.search 1 job.inFile with
  | error e => rw [hD] at h1; cases h1
  | ok D =>
    rw [hD] at h1
    cases hE : job.compiled 1 before with
    | none => rw [hE] at h2; cases h2
    | some E =>
      rw [hE] at h2
      cases hw : writeProto [] 1 job before with
      | mk r d' =>
        rw [hw] at h0
        cases r with
        | error e => cases h0
        | ok u =>
          have h1 : okD D = true := h1
          have h2 : okE E = true := h2
          unfold okD GeneratedExample.okRead at h1
          unfold okE at h2
          simp only [Bool.and_eq_true, decide_eq_true_eq] at h1 h2
          obtain ⟨⟨⟨a1, a2⟩, a3⟩, a4⟩ := h2
          obtain ⟨⟨⟨⟨b1, b2⟩, b3⟩, b4⟩, b5⟩ := h1
          have b1 := fun i m hm => b1 (i, m) ((mem_preorder_file D i m).mpr hm)
          have hkept : ∀ e en, D.getEnum e = some en → EnumKept en := fun e en he =>
            ⟨(b2 _ (mem_enumList he)).1, (b2 _ (mem_enumList he)).2.1, (b2 _ (mem_enumList he)).2.2.1⟩
          have hdf := fun i m (hm : D.getMessage i = some m) => b3 (i, m) ((mem_preorder_file D i m).mpr hm)
          refine ⟨D, E, d', rfl, rfl, fun i m hm => (b1 i m hm).1, ⟨fun i m hm => (b1 i m hm).2.1, fun i m hm => (b1 i m hm).2.2.1⟩,
            fun i m hi hm f hf hp => absurd hp ((b1 i m hm).2.2.2 hi f hf), rfl, fun t ht hi => ?_, distinct_of a1, ?_, ⟨hkept, ?_, ?_⟩, ?_⟩
          · rw [a2 t ht] at hi; cases hi
          · intro i m hm f hf hv hpk
            rw [a3 (i, m) ((mem_preorder_file E i m).mpr hm) f hf hv] at hpk
            cases hpk
          · intro i m f d hm hf hd hs
            rcases hdf i m hm f hf d hd with ⟨ht, rfl⟩ | ⟨ht, _⟩
            · rw [ht]
              refine ⟨_, .s32 _ _ (-8) (.inr (.inl rfl)) (.minus (c! "8") 8 (.decimal (c! "8") ⟨by decide, by decide⟩ (by decide))) (by decide) (by decide), by decide +kernel⟩
            · rw [ht] at hs; cases hs
          · intro i m f d e en hm hf hd hres he
            rcases hdf i m hm f hf d hd with ⟨ht, rfl⟩ | ⟨_, rfl⟩
            · rw [ht] at hres; cases hres
            · obtain ⟨v, hv, hvb⟩ := List.mem_map.mp (b2 _ (mem_enumList he)).2.2.2
              exact ⟨v.2, by rw [← hvb]; exact hv⟩
          · obtain ⟨f, hf, hf'⟩ := Option.map_eq_some_iff.mp b4
            obtain ⟨m, hm, hf⟩ := Option.bind_eq_some_iff.mp hf
            obtain ⟨g, hg, hg'⟩ := Option.map_eq_some_iff.mp a4
            obtain ⟨m', hm', hg⟩ := Option.bind_eq_some_iff.mp hg
            obtain ⟨en, hen, henf⟩ := Option.map_eq_some_iff.mp b5
            refine ⟨m, f, en, m', g, hm, hf, congrArg Prod.snd hf', hm', hg, congrArg Prod.fst hg', hen, hkept _ _ hen, ?_, ?_, ?_, congrArg Prod.snd hg'⟩
            · rw [henf]; decide
            · rw [henf]; decide
            · rw [henf]; decide

end EnumDefaultsExample

/-! ## Names that are changed -/

open RunExample in
/-- A value named like a word of Rust: the variant is renamed, the default is not (it names a variant that does not exist). -/
theorem C95_refuted_value : ∃ (d : Disk) (j : Job) (t : Str), (writeProto [] 1 j d).1.isOk = true ∧
    d.file j.inFile = some (c! "syntax = \"proto3\"; enum E { None = 0; } message M { E a = 1; }") ∧
    j = { inFile := c! "x.proto", outFile := c! "x.rs" } ∧
    (writeProto [] 1 j d).2.file (c! "x.rs") = some t ∧ c! "    None_pb = 0," <:+: t ∧ c! "if self.a != x::E::None {" <:+: t := by
  refine ⟨(disk [(c! "x.proto", c! "syntax = \"proto3\"; enum E { None = 0; } message M { E a = 1; }")] []), { inFile := c! "x.proto", outFile := c! "x.rs" },
    ((writeProto [] 1 { inFile := c! "x.proto", outFile := c! "x.rs" } (disk [(c! "x.proto", c! "syntax = \"proto3\"; enum E { None = 0; } message M { E a = 1; }")] [])).2.file (c! "x.rs")).getD [],
    by decide +kernel, by decide +kernel, rfl, by decide +kernel, by decide +kernel, by decide +kernel⟩

open RunExample in
/-- An enum named like a word of Rust: it is renamed, the type of a custom default is not. -/
theorem C95_refuted_name : ∃ (d : Disk) (j : Job) (t : Str), (writeProto [] 1 j d).1.isOk = true ∧
    d.file j.inFile = some (c! "enum Box { X = 1; } message M { optional Box b = 2 [default = X]; }") ∧
    j = { inFile := c! "x.proto", outFile := c! "x.rs" } ∧
    (writeProto [] 1 j d).2.file (c! "x.rs") = some t ∧ c! "pub enum Box_pb {" <:+: t ∧ c! "pub const DEFAULT_b: Box_pb = Box::X;" <:+: t := by
  refine ⟨(disk [(c! "x.proto", c! "enum Box { X = 1; } message M { optional Box b = 2 [default = X]; }")] []), { inFile := c! "x.proto", outFile := c! "x.rs" },
    ((writeProto [] 1 { inFile := c! "x.proto", outFile := c! "x.rs" } (disk [(c! "x.proto", c! "enum Box { X = 1; } message M { optional Box b = 2 [default = X]; }")] [])).2.file (c! "x.rs")).getD [],
    by decide +kernel, by decide +kernel, rfl, by decide +kernel, by decide +kernel, by decide +kernel⟩

open RunExample in
/-- Without package the enum is looked up in the module of the input file, although the output has another name. -/
theorem C95_refuted_file : ∃ (d : Disk) (j : Job) (t : Str), (writeProto [] 1 j d).1.isOk = true ∧
    d.file j.inFile = some (c! "syntax = \"proto3\"; enum E { A = 0; } message M { E a = 1; }") ∧
    j = { inFile := c! "x.proto", outFile := c! "y.rs" } ∧
    (writeProto [] 1 j d).2.file (c! "y.rs") = some t ∧ c! "pub enum E {" <:+: t ∧ c! "if self.a != x::E::A {" <:+: t := by
  refine ⟨(disk [(c! "x.proto", c! "syntax = \"proto3\"; enum E { A = 0; } message M { E a = 1; }")] []), { inFile := c! "x.proto", outFile := c! "y.rs" },
    ((writeProto [] 1 { inFile := c! "x.proto", outFile := c! "y.rs" } (disk [(c! "x.proto", c! "syntax = \"proto3\"; enum E { A = 0; } message M { E a = 1; }")] [])).2.file (c! "y.rs")).getD [],
    by decide +kernel, by decide +kernel, rfl, by decide +kernel, by decide +kernel, by decide +kernel⟩

open RunExample in
/-- With `--single-mod` there is no module for the package, but the enum is looked up in it. -/
theorem C95_refuted_single : ∃ (d : Disk) (j : Job) (t : Str), (writeProto [] 1 j d).1.isOk = true ∧
    d.file j.inFile = some (c! "syntax = \"proto3\"; package p; enum E { A = 0; } message M { E a = 1; }") ∧
    j = { inFile := c! "x.proto", outFile := c! "x.rs", cfg := { singleModule := true } } ∧
    (writeProto [] 1 j d).2.file (c! "x.rs") = some t ∧ c! "    pub a: E," <:+: t ∧ c! "if self.a != p::E::A {" <:+: t := by
  refine ⟨(disk [(c! "x.proto", c! "syntax = \"proto3\"; package p; enum E { A = 0; } message M { E a = 1; }")] []), { inFile := c! "x.proto", outFile := c! "x.rs", cfg := { singleModule := true } },
    ((writeProto [] 1 { inFile := c! "x.proto", outFile := c! "x.rs", cfg := { singleModule := true } } (disk [(c! "x.proto", c! "syntax = \"proto3\"; package p; enum E { A = 0; } message M { E a = 1; }")] [])).2.file (c! "x.rs")).getD [],
    by decide +kernel, by decide +kernel, rfl, by decide +kernel, by decide +kernel, by decide +kernel⟩

end QP.Rust
