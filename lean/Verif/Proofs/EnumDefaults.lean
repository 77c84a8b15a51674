import Verif.Spec.EnumDefaults
import Verif.Proofs.Links
set_option linter.unusedVariables false
/-!
# The texts of enum values
-/

namespace QP.Pbrs

theorem SameShells.getEnum {D D' : FileDescriptor} (h : SameShells D D') (e : EnumIndex) :
    (D'.getEnum e).map Enumerator.core = (D.getEnum e).map Enumerator.core := by
  obtain ⟨h1, h2, _⟩ := h
  obtain ⟨i, k⟩ := e
  cases i with
  | nil =>
    have := congrArg (·[k]?) h2
    simpa [FileDescriptor.getEnum] using this
  | cons j js =>
    simp only [FileDescriptor.getEnum, List.isEmpty_cons, Bool.false_eq_true, if_false]
    have := h1 (j :: js)
    cases h1 : D'.getMessage (j :: js) with
    | none =>
      cases h2 : D.getMessage (j :: js) with
      | none => rfl
      | some m => rw [h1, h2] at this; cases this
    | some m' =>
      cases h2 : D.getMessage (j :: js) with
      | none => rw [h1, h2] at this; cases this
      | some m =>
        rw [h1, h2] at this
        simp only [Option.map_some, Option.some.injEq] at this
        have := congrArg (fun x : Message => x.enums[k]?) this
        cases m
        cases m'
        simpa [Message.shell] using this

/-- The enums and the header when the defaults are set. -/
theorem stage3_shells {path : FileDescriptor → FieldType → Str} {cfg : Config} {D D1 D2 D3 D4 D' : FileDescriptor}
    (S : Stages path cfg D D1 D2 D3 D4 D') : SameShells D D3 := by
  have hI := C52_positions S.resolve
  obtain ⟨_, H2, hR, _⟩ := breakCycles_ok hI S.cycles
  have l := shells_convert cfg D2
  rw [← S.convert] at l
  exact ((shells_resolve S.resolve).trans (shells_rewritten hR)).trans l

/-- The names of the values of the enum, with everything in front of them. -/
def Enumerator.Qualified (e : Enumerator) : Prop :=
  e.fullyQualified = e.fields.map fun f => (if e.module.isEmpty then [] else colons e.module ++ [':', ':']) ++ (e.name ++ ':' :: ':' :: f.1)

theorem setPackage_qualified (e : Enumerator) (p q : Str) : (e.setPackage p q).Qualified := by
  unfold Enumerator.Qualified Enumerator.setPackage
  simp only [List.map_map]
  refine List.map_congr_left fun f _ => ?_
  simp only [Function.comp]
  split <;> simp

/-- All enums in a message are. -/
def EnumsQualified (m : Message) : Prop := ∀ js x, m.descend js = some x → ∀ e ∈ x.enums, e.Qualified

theorem setPackage_descend_inv (js : List Nat) : ∀ (m : Message) (p q : Str) (x : Message), (m.setPackage p q).descend js = some x →
    ∃ y p' q', m.descend js = some y ∧ x = y.setPackage p' q' := by
  induction js with
  | nil => intro m p q x h; cases h; exact ⟨m, p, q, rfl, rfl⟩
  | cons j js ih =>
    intro m p q x h
    obtain ⟨name, fields, oneofs, nums, names, imported, pkg, messages, enums, module, index⟩ := m
    simp only [Message.setPackage, Message.descend] at h
    rw [setPackageAll_getElem] at h
    obtain ⟨z, hz, h⟩ := Option.bind_eq_some_iff.mp h
    obtain ⟨w, hw, rfl⟩ := Option.map_eq_some_iff.mp hz
    obtain ⟨y, p', q', hy, rfl⟩ := ih w _ _ x h
    exact ⟨y, p', q', by simp only [Message.descend]; rw [hw]; exact hy, rfl⟩

theorem setPackage_enumsQualified (m : Message) (p q : Str) : EnumsQualified (m.setPackage p q) := by
  intro js x hx e he
  obtain ⟨y, p', q', _, rfl⟩ := setPackage_descend_inv js m p q x hx
  obtain ⟨name, fields, oneofs, nums, names, imported, pkg, messages, enums, module, index⟩ := y
  simp only [Message.setPackage] at he
  obtain ⟨e0, _, rfl⟩ := List.mem_map.mp he
  exact setPackage_qualified _ _ _

theorem setImported_enumsQualified {m : Message} (h : EnumsQualified m) : EnumsQualified m.setImported := by
  intro js x hx e he
  obtain ⟨y, hy, rfl⟩ := Rust.setImported_descend js m x hx
  have h := h js y hy
  obtain ⟨name, fields, oneofs, nums, names, imported, pkg, messages, enums, module, index⟩ := y
  simp only [Message.setImported] at he
  obtain ⟨e0, he0, rfl⟩ := List.mem_map.mp he
  exact h e0 he0

theorem adopt_enumsQualified {m : Message} {p q : Str} (h : EnumsQualified m) : EnumsQualified (m.adopt p q) := by
  unfold Message.adopt
  refine setImported_enumsQualified ?_
  split
  · exact setPackage_enumsQualified _ _ _
  · exact h

theorem adopt_qualified {e : Enumerator} {p q : Str} (h : e.Qualified) : (e.adopt p q).Qualified := by
  unfold Enumerator.adopt
  split
  · exact setPackage_qualified e p q
  · exact h

theorem readProtoFile_qualified {fs : Files} {search : List Str} (n : Nat) : ∀ {file : Str} {D : FileDescriptor},
    readProtoFile fs search n file = .ok D → (∀ m ∈ D.messages, EnumsQualified m) ∧ ∀ e ∈ D.enums, e.Qualified := by
  induction n with
  | zero => intro file D h; cases h
  | succ n ih =>
    intro file D h
    obtain ⟨D0, imps, hR, hf⟩ := readProtoFile_inv h
    obtain ⟨text, F, r, _, _, _, rfl⟩ := reads_parsed hR
    obtain ⟨_, h1, h2⟩ := fetch_sources hf
    constructor
    · intro m hm
      rcases h1 m hm with hm | ⟨_, _, q, f, _, hq, m', hm', rfl⟩
      · simp only [FileDescriptor.setPackages, setPackageAll_eq] at hm
        obtain ⟨m0, _, rfl⟩ := List.mem_map.mp hm
        exact setPackage_enumsQualified _ _ _
      · exact adopt_enumsQualified ((ih hq).1 m' hm')
    · intro e he
      rcases h2 e he with he | ⟨_, _, q, f, _, hq, e', he', rfl⟩
      · simp only [FileDescriptor.setPackages] at he
        obtain ⟨e0, _, rfl⟩ := List.mem_map.mp he
        exact setPackage_qualified _ _ _
      · exact adopt_qualified ((ih hq).2 e' he')

theorem getEnum_qualified {D : FileDescriptor} (h1 : ∀ m ∈ D.messages, EnumsQualified m) (h2 : ∀ e ∈ D.enums, e.Qualified) {e : EnumIndex}
    {en : Enumerator} (h : D.getEnum e = some en) : en.Qualified := by
  obtain ⟨i, k⟩ := e
  cases i with
  | nil =>
    simp only [FileDescriptor.getEnum, List.isEmpty_nil, if_true] at h
    exact h2 en (List.mem_of_getElem? h)
  | cons j js =>
    simp only [FileDescriptor.getEnum, List.isEmpty_cons, Bool.false_eq_true, if_false] at h
    obtain ⟨m, hm, h⟩ := Option.bind_eq_some_iff.mp h
    rw [FileDescriptor.getMessage] at hm
    obtain ⟨t, ht, hd⟩ := Option.bind_eq_some_iff.mp hm
    exact h1 t (List.mem_of_getElem? ht) js m hd en (List.mem_of_getElem? h)

end QP.Pbrs

namespace QP.Rust
open QP.Pbrs QP.Gen

theorem pathText_cons (x : Str) {p : Path} (h : p ≠ []) : pathText (x :: p) = x ++ ':' :: ':' :: pathText p := by
  cases p with
  | nil => exact absurd rfl h
  | cons y p => rfl

theorem pathText_one (x : Str) : pathText [x] = x := by
  show x ++ [] = x
  simp

theorem pathText_append (p : Path) {q : Path} (hp : p ≠ []) (hq : q ≠ []) : pathText (p ++ q) = pathText p ++ ':' :: ':' :: pathText q := by
  induction p with
  | nil => exact absurd rfl hp
  | cons x p ih =>
    cases p with
    | nil => rw [pathText_one]; exact pathText_cons x hq
    | cons y p =>
      rw [pathText_cons x (by simp), List.cons_append, pathText_cons x (by simp), ih (by simp)]
      simp

theorem colons_split (s : Str) : colons s = pathText (splitDot s) := by
  induction s with
  | nil => rfl
  | cons c s ih =>
    unfold colons at ih ⊢
    rw [List.flatMap_cons, ih, splitDot]
    have hne := splitDot_ne_nil s
    split
    · rw [pathText_cons [] hne]; rfl
    · cases hs : splitDot s with
      | nil => exact absurd hs hne
      | cons t ts =>
        simp only
        cases ts with
        | nil => rw [pathText_one, pathText_one]; rfl
        | cons u us => rw [pathText_cons t (by simp), pathText_cons (c :: t) (by simp)]; rfl

theorem segments_split {s : Str} (h : [] ∉ splitDot s) : segments s = splitDot s := by
  unfold segments
  rw [List.filter_eq_self]
  intro t ht
  cases t with
  | nil => exact absurd ht h
  | cons _ _ => rfl

/-- The text of a value of an enum. -/
theorem qualified_text {e : Enumerator} (hq : e.Qualified) (hm : [] ∉ splitDot e.module) {k : Nat} {v : Str} {n : Int}
    (hk : e.fields[k]? = some (v, n)) : e.fullyQualified[k]? = some (pathText (fullPath e ++ [v])) := by
  rw [hq, List.getElem?_map, hk]
  have hne : e.module ≠ [] := by
    intro h
    rw [h] at hm
    exact hm (by simp [splitDot])
  have h1 : e.module.isEmpty = false := by cases he : e.module with | nil => exact absurd he hne | cons _ _ => rfl
  unfold fullPath
  rw [segments_split hm, List.append_assoc, pathText_append _ (splitDot_ne_nil _) (by simp), ← colons_split]
  show some _ = some _
  rw [h1]
  have : pathText ([e.name] ++ [v]) = e.name ++ ':' :: ':' :: v := by
    rw [pathText_append _ (by simp) (by simp), pathText_one, pathText_one]
  rw [this]
  simp

/-- An enum whose names are kept, before and after compiling. -/
theorem kept_enum {e e' : Enumerator} (hk : EnumKept e) (h : e'.core = e.core.sanitizeNames) :
    e'.name = e.name ∧ e'.fields = e.fields ∧ e'.module = e.module ∧ e'.imported = e.imported ∧ e'.fullyQualified = e.fullyQualified := by
  have h1 := congrArg Enumerator.name h
  have h2 := congrArg Enumerator.fields h
  have h3 := congrArg Enumerator.module h
  have h4 := congrArg Enumerator.imported h
  have h5 := congrArg Enumerator.fullyQualified h
  refine ⟨(show e'.name = sanitizeKeyword e.name from h1).trans hk.name, ?_, h3, h4, h5⟩
  have h2 : e'.fields = e.fields.map (fun p => (sanitizeKeyword p.1, p.2)) := h2
  rw [h2]
  conv => rhs; rw [← List.map_id e.fields]
  exact List.map_congr_left fun p hp => by rw [hk.values p hp]; rfl

end QP.Rust
