import Verif.Proofs.EvalProg
import Verif.Spec.Distinct
import Verif.Proofs.Resolve
set_option linter.unusedVariables false
/-!
# The generated program exists

Items with different paths make a program.
-/

namespace QP.Rust
open QP.Pbrs QP.Gen
open Classical in
/-- The program whose items are those printed for `D`. -/
noncomputable def progOf (D : FileDescriptor) (cfg : Config) (K : Ty → Str → RVal) : Prog where
  structs p := if h : ∃ m idx, D.getMessage idx = some m ∧ messagePath D m = p then structDef D cfg h.choose else none
  oneofs p := if h : ∃ o idx m, D.getMessage idx = some m ∧ o ∈ m.oneofs ∧ oneofPath D o = p then variantTys D cfg h.choose else none
  enums p := if h : ∃ en e, D.getEnum e = some en ∧ enumPath D en = p then
    some (h.choose.fields.map fun p => BitVec.ofInt 32 p.2) else none
  const := K

open Classical in
/-- Its defaults. -/
noncomputable def defaultsOf (D : FileDescriptor) (dflt : MessageIndex → RVal) (p : Path) : RVal :=
  if h : ∃ idx m, D.getMessage idx = some m ∧ messagePath D m = p then dflt h.choose
  else if h : ∃ en e, D.getEnum e = some en ∧ enumPath D en = p then .w32 ((h.choose.fields.map fun p => BitVec.ofInt 32 p.2).headD 0)
  else .none

section
variable {D : FileDescriptor} {cfg : Config} {K : Ty → Str → RVal} {dflt : MessageIndex → RVal}

theorem progOf_struct (hD : Distinct D cfg) {idx : MessageIndex} {m : Message} (hm : D.getMessage idx = some m) :
    (progOf D cfg K).structs (messagePath D m) = structDef D cfg m := by
  have h : ∃ m' idx, D.getMessage idx = some m' ∧ messagePath D m' = messagePath D m := ⟨m, idx, hm, rfl⟩
  simp only [progOf]
  rw [dif_pos h]
  obtain ⟨i, h1, h2⟩ := h.choose_spec
  have := hD.messages _ _ _ _ h1 hm h2
  subst this
  rw [Option.some.inj (h1.symm.trans hm)]

theorem progOf_oneof (hD : Distinct D cfg) {idx : MessageIndex} {m : Message} (hm : D.getMessage idx = some m) {o : OneOf} (ho : o ∈ m.oneofs) :
    (progOf D cfg K).oneofs (oneofPath D o) = variantTys D cfg o := by
  have h : ∃ o' idx m, D.getMessage idx = some m ∧ o' ∈ m.oneofs ∧ oneofPath D o' = oneofPath D o := ⟨o, idx, m, hm, ho, rfl⟩
  simp only [progOf]
  rw [dif_pos h]
  obtain ⟨i, m', h1, h2, h3⟩ := h.choose_spec
  obtain ⟨k, hk⟩ := List.mem_iff_getElem?.mp h2
  obtain ⟨k', hk'⟩ := List.mem_iff_getElem?.mp ho
  obtain ⟨rfl, rfl⟩ := hD.oneofs _ _ _ _ _ _ _ _ h1 hm hk hk' h3
  cases h1.symm.trans hm
  rw [Option.some.inj (hk.symm.trans hk')]

theorem progOf_enum (hD : Distinct D cfg) {e : EnumIndex} {en : Enumerator} (he : D.getEnum e = some en) :
    (progOf D cfg K).enums (enumPath D en) = some (en.fields.map fun p => BitVec.ofInt 32 p.2) := by
  have h : ∃ en' e, D.getEnum e = some en' ∧ enumPath D en' = enumPath D en := ⟨en, e, he, rfl⟩
  simp only [progOf]
  rw [dif_pos h]
  obtain ⟨i, h1, h2⟩ := h.choose_spec
  have := hD.enums _ _ _ _ h1 he h2
  subst this
  rw [Option.some.inj (h1.symm.trans he)]

theorem defaultsOf_message (hD : Distinct D cfg) {idx : MessageIndex} {m : Message} (hm : D.getMessage idx = some m) :
    defaultsOf D dflt (messagePath D m) = dflt idx := by
  have h : ∃ idx m', D.getMessage idx = some m' ∧ messagePath D m' = messagePath D m := ⟨idx, m, hm, rfl⟩
  unfold defaultsOf
  rw [dif_pos h]
  obtain ⟨m', h1, h2⟩ := h.choose_spec
  rw [hD.messages _ _ _ _ h1 hm h2]

theorem defaultsOf_enum (hD : Distinct D cfg) {e : EnumIndex} {en : Enumerator} (he : D.getEnum e = some en) :
    defaultsOf D dflt (enumPath D en) = .w32 ((en.fields.map fun p => BitVec.ofInt 32 p.2).headD 0) := by
  have hn : ¬ ∃ idx m', D.getMessage idx = some m' ∧ messagePath D m' = enumPath D en := by
    rintro ⟨idx, m', h1, h2⟩
    exact hD.messageEnum _ _ _ _ h1 he h2
  have h : ∃ en' e, D.getEnum e = some en' ∧ enumPath D en' = enumPath D en := ⟨en, e, he, rfl⟩
  unfold defaultsOf
  rw [dif_neg hn, dif_pos h]
  obtain ⟨i, h1, h2⟩ := h.choose_spec
  have := hD.enums _ _ _ _ h1 he h2
  subst this
  rw [Option.some.inj (h1.symm.trans he)]

theorem defaultsOf_oneof (hD : Distinct D cfg) {idx : MessageIndex} {m : Message} (hm : D.getMessage idx = some m) {o : OneOf} (ho : o ∈ m.oneofs) :
    defaultsOf D dflt (oneofPath D o) = .none := by
  unfold defaultsOf
  rw [dif_neg, dif_neg]
  · rintro ⟨en, e, h1, h2⟩
    exact hD.enumOneof _ _ _ _ h1 hm _ ho h2
  · rintro ⟨idx, m', h1, h2⟩
    exact hD.messageOneof _ _ _ _ h1 hm _ ho h2

theorem mapM_fst {α : Type} {n : α → Str} {t : α → Option (Str × Ty)} (ht : ∀ a b, t a = some b → b.1 = n a) {l : List α} {bs : List (Str × Ty)}
    (h : l.mapM t = some bs) : bs.map (·.1) = l.map n := by
  refine forall₂_map_eq (forall₂_get (mapM_length h) ?_)
  intro j b a hb ha
  obtain ⟨b', hb', hab⟩ := mapM_get h ha
  rw [hb] at hb'
  cases hb'
  exact ht _ _ hab

/-- The program with the printed items, for the meaning `K` of literals. -/
theorem generates_progOf {C : Ctx} {K : Ty → Str → RVal} (hD : Distinct C.D C.cfg) (hK : Literals C.D C.cfg K)
    (hC : C.const = fun t s => K (litTy C.D C.cfg t) s)
    (hdef : ∀ idx m, C.D.getMessage idx = some m → ∃ s, structDef C.D C.cfg m = some s)
    (hone : ∀ idx m, C.D.getMessage idx = some m → ∀ o ∈ m.oneofs, ∃ vs, variantTys C.D C.cfg o = some vs) :
    Generates C (progOf C.D C.cfg K) (defaultsOf C.D C.dflt) where
  structs idx m hm := by
    obtain ⟨s, hs⟩ := hdef idx m hm
    exact ⟨s, hs, by rw [progOf_struct hD hm, hs]⟩
  names idx m hm fs hfs := by
    obtain ⟨as, has, hfs⟩ := Option.bind_eq_some_iff.mp hfs
    obtain ⟨os, hos, rfl⟩ := Option.map_eq_some_iff.mp hfs
    rw [List.map_append, mapM_fst (n := fun f : Field => f.name) ?_ has, mapM_fst (n := fun f : OneOf => f.name) ?_ hos]
    · exact hD.fields idx m hm
    · intro o b hb
      obtain ⟨l, _, rfl⟩ := Option.map_eq_some_iff.mp hb
      rfl
    · intro o b hb
      obtain ⟨l, _, rfl⟩ := Option.map_eq_some_iff.mp hb
      rfl
  oneofs idx m hm o ho := by
    obtain ⟨vs, hvs⟩ := hone idx m hm o ho
    refine ⟨vs, hvs, by rw [progOf_oneof hD hm ho, hvs], ?_⟩
    rw [mapM_fst (n := fun f : Field => f.name) ?_ hvs]
    · exact hD.variants idx m hm o ho
    · intro o b hb
      obtain ⟨l, _, rfl⟩ := Option.map_eq_some_iff.mp hb
      rfl
  enums e en he := progOf_enum hD he
  default idx m hm := defaultsOf_message hD hm
  enumDefault e en he := by
    rw [defaultsOf_enum hD he]
    unfold Ctx.enumNums
    rw [he]
  first e en s he hs := by
    rw [show (progOf C.D C.cfg K).const = K from rfl, hK.first e en s he hs]
    unfold Ctx.enumNums
    rw [he]
  const idx m hm f hf s hs T hT := by
    show K _ _ = _
    rw [hC]
    simp only
    unfold litTy
    cases hty : f.typ <;> simp only [hty] at hT ⊢ <;> (try rw [hT]) <;> rfl
  constTyped idx m hm f hf s hs hmsg hg := by
    rw [hC]
    exact hK.typed idx m hm f hf s hs hmsg hg C rfl

/-- Its defaults are the generated ones. -/
theorem isDefault_progOf {C : Ctx} {K : Ty → Str → RVal} (hD : Distinct C.D C.cfg) (G : Generates C (progOf C.D C.cfg K) (defaultsOf C.D C.dflt))
    (hS : SchemaOk C) (hK : PackedOk C) (h : IsDefault C) : (progOf C.D C.cfg K).IsDefault C.T (defaultsOf C.D C.dflt) := by
  have hO : ∀ p vs, (progOf C.D C.cfg K).oneofs p = some vs → defaultsOf C.D C.dflt p = .none := by
    intro p vs hp
    simp only [progOf] at hp
    split at hp
    · rename_i hx
      obtain ⟨o, idx, m, hm, ho, rfl⟩ := hx
      exact defaultsOf_oneof hD hm ho
    · cases hp
  refine ⟨?_, ?_, hO⟩
  · intro p s hp
    have hp' := hp
    simp only [progOf] at hp
    split at hp
    · rename_i hx
      obtain ⟨m, idx, hm, rfl⟩ := hx
      refine ⟨_, prog_default G hS hK hm hp' hO, ?_⟩
      rw [defaultsOf_message hD hm]
      exact h idx m hm
    · cases hp
  · intro p nums hp
    have hp' := hp
    simp only [progOf] at hp
    split at hp
    · rename_i hx
      obtain ⟨en, e, he, rfl⟩ := hx
      rw [progOf_enum hD he] at hp'
      cases hp'
      exact defaultsOf_enum hD he
    · cases hp

end

/-! ## Checking that nothing is defined twice -/

/-- All enums. -/
def enumList (D : FileDescriptor) : List (EnumIndex × Enumerator) :=
  (D.enums.zipIdx.map fun p => (⟨[], p.2⟩, p.1)) ++
    (Message.preorderAll [] 0 D.messages).flatMap fun p => p.2.enums.zipIdx.map fun q => (⟨p.1, q.2⟩, q.1)

theorem mem_enumList {D : FileDescriptor} {e : EnumIndex} {en : Enumerator} (h : D.getEnum e = some en) : (e, en) ∈ enumList D := by
  obtain ⟨i, k⟩ := e
  unfold FileDescriptor.getEnum at h
  unfold enumList
  cases i with
  | nil =>
    simp only [List.isEmpty_nil, if_true] at h
    exact List.mem_append_left _ (List.mem_map.mpr ⟨(en, k), List.mem_zipIdx_iff_getElem?.mpr h, rfl⟩)
  | cons a l =>
    simp only [List.isEmpty_cons, Bool.false_eq_true, if_false] at h
    obtain ⟨m, hm, h⟩ := Option.bind_eq_some_iff.mp h
    refine List.mem_append_right _ (List.mem_flatMap.mpr ⟨(a :: l, m), (mem_preorder_file D _ _).mpr hm, ?_⟩)
    exact List.mem_map.mpr ⟨(en, k), List.mem_zipIdx_iff_getElem?.mpr h, rfl⟩

/-- All oneofs. -/
def oneofList (D : FileDescriptor) : List ((MessageIndex × Nat) × OneOf) :=
  (Message.preorderAll [] 0 D.messages).flatMap fun p => p.2.oneofs.zipIdx.map fun q => ((p.1, q.2), q.1)

theorem mem_oneofList {D : FileDescriptor} {i : MessageIndex} {m : Message} {k : Nat} {o : OneOf} (h : D.getMessage i = some m)
    (ho : m.oneofs[k]? = some o) : ((i, k), o) ∈ oneofList D :=
  List.mem_flatMap.mpr ⟨(i, m), (mem_preorder_file D _ _).mpr h, List.mem_map.mpr ⟨(o, k), List.mem_zipIdx_iff_getElem?.mpr ho, rfl⟩⟩

/-- The check. -/
def distinctB (D : FileDescriptor) (cfg : Config) : Bool :=
  let M := (Message.preorderAll [] 0 D.messages).map fun p => (p.1, messagePath D p.2)
  let E := (enumList D).map fun p => (p.1, enumPath D p.2)
  let O := (oneofList D).map fun p => (p.1, oneofPath D p.2)
  decide (∀ a ∈ M, ∀ b ∈ M, a.2 = b.2 → a.1 = b.1) && decide (∀ a ∈ E, ∀ b ∈ E, a.2 = b.2 → a.1 = b.1) &&
    decide (∀ a ∈ O, ∀ b ∈ O, a.2 = b.2 → a.1 = b.1) && decide (∀ a ∈ M, ∀ b ∈ E, a.2 ≠ b.2) && decide (∀ a ∈ M, ∀ b ∈ O, a.2 ≠ b.2) &&
    decide (∀ a ∈ E, ∀ b ∈ O, a.2 ≠ b.2) &&
    decide (∀ p ∈ Message.preorderAll [] 0 D.messages, ((shownFields cfg p.2).map (·.name) ++ p.2.oneofs.map (·.name)).Nodup) &&
    decide (∀ p ∈ oneofList D, ((p.2.shown cfg).map (·.name)).Nodup) &&
    decide (cfg.generateGetters = true → ∀ p ∈ Message.preorderAll [] 0 D.messages, ∀ f ∈ p.2.fields, f.default ≠ none → f.name ≠ c! "size")

theorem distinct_of {D : FileDescriptor} {cfg : Config} (h : distinctB D cfg = true) : Distinct D cfg := by
  unfold distinctB at h
  simp only [Bool.and_eq_true, decide_eq_true_eq] at h
  obtain ⟨⟨⟨⟨⟨⟨⟨⟨h1, h2⟩, h3⟩, h4⟩, h5⟩, h6⟩, h7⟩, h8⟩, h9⟩ := h
  have M : ∀ {i m}, D.getMessage i = some m → (i, messagePath D m) ∈ (Message.preorderAll [] 0 D.messages).map fun p => (p.1, messagePath D p.2) :=
    fun h => List.mem_map.mpr ⟨_, (mem_preorder_file D _ _).mpr h, rfl⟩
  have E : ∀ {e en}, D.getEnum e = some en → (e, enumPath D en) ∈ (enumList D).map fun p => (p.1, enumPath D p.2) :=
    fun h => List.mem_map.mpr ⟨_, mem_enumList h, rfl⟩
  have O : ∀ {i m} {k : Nat} {o}, D.getMessage i = some m → m.oneofs[k]? = some o →
      ((i, k), oneofPath D o) ∈ (oneofList D).map fun p => (p.1, oneofPath D p.2) :=
    fun h h' => List.mem_map.mpr ⟨_, mem_oneofList h h', rfl⟩
  constructor
  · intro i j m m' hm hm' he
    exact h1 _ (M hm) _ (M hm') he
  · intro i j m m' hm hm' he
    exact h2 _ (E hm) _ (E hm') he
  · intro i j m m' k k' o o' hm hm' ho ho' he
    exact Prod.mk.inj (h3 _ (O hm ho) _ (O hm' ho') he)
  · intro i m e en hm he
    exact h4 _ (M hm) _ (E he)
  · intro i m j m' hm hm' o ho
    obtain ⟨k, hk⟩ := List.mem_iff_getElem?.mp ho
    exact h5 _ (M hm) _ (O hm' hk)
  · intro e en j m' he hm' o ho
    obtain ⟨k, hk⟩ := List.mem_iff_getElem?.mp ho
    exact h6 _ (E he) _ (O hm' hk)
  · intro i m hm
    exact h7 _ ((mem_preorder_file D _ _).mpr hm)
  · intro i m hm o ho
    obtain ⟨k, hk⟩ := List.mem_iff_getElem?.mp ho
    exact h8 _ (mem_oneofList hm hk)
  · intro hg i m hm
    exact h9 hg _ ((mem_preorder_file D _ _).mpr hm)

end QP.Rust
