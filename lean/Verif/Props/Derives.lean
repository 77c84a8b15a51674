import Verif.Props.PathsExample
set_option linter.unusedVariables false
/-!
# The traits that are derived (C90)
-/

namespace QP.Rust
open QP.Pbrs RunExample

/-- `a, b, c` -/
def commaList : List Str → Str
  | [] => []
  | [s] => s
  | s :: ss => s ++ c! ", " ++ commaList ss

/-- The traits that are asked for: the custom ones, `Default` if there is no `impl Default`, and three that are always derived. -/
def traits (custom : List Str) (implDefault : Bool) : List Str :=
  custom ++ (if implDefault then [] else [c! "Default"]) ++ [c! "Debug", c! "PartialEq", c! "Clone"]

/-- `#[derive(…)]` -/
def deriveLine (ts : List Str) : Doc := ln d!"#[derive({commaList ts})]"

/-- `#[repr(…)]` -/
def reprLine : Option Str → Doc
  | some r => ln d!"#[repr({r})]"
  | none => .empty

theorem commas_str (ts : List Str) : commas ts = Doc.lit ((ts.map fun t => t ++ c! ", ").flatten) := by
  apply doc_ext
  induction ts with
  | nil => rfl
  | cons t ts ih =>
    simp only [commas, toDoc]
    simp only [Doc.str, Doc.append, Doc.lit] at ih ⊢
    simp [ih]

theorem commaList_append (a : List Str) {b : List Str} (hb : b ≠ []) : commaList (a ++ b) = (a.map fun t => t ++ c! ", ").flatten ++ commaList b := by
  induction a with
  | nil => rfl
  | cons t a ih =>
    have : commaList (t :: (a ++ b)) = t ++ c! ", " ++ commaList (a ++ b) := by
      cases h : a ++ b with
      | nil => simp at h; exact absurd h.2 hb
      | cons x xs => rfl
    rw [List.cons_append, this, ih]
    simp

/-- The line with the derived traits. -/
theorem attributes_line (cfg : Config) (dflt : Bool) : attributes cfg dflt =
    ln d!"#[allow(clippy::derive_partial_eq_without_eq)]" ++ deriveLine (derived dflt cfg.customStructDerive ++ [c! "Debug", c! "PartialEq", c! "Clone"]) ++
      reprLine cfg.customRepr := by
  have h1 : (ln d!"#[derive({commas (derived dflt cfg.customStructDerive)}Debug, PartialEq, Clone)]" : Doc) =
      deriveLine (derived dflt cfg.customStructDerive ++ [c! "Debug", c! "PartialEq", c! "Clone"]) := by
    unfold deriveLine
    rw [commas_str, commaList_append _ (by simp)]
    apply doc_ext
    simp only [toDoc, ln, commaList]
    simp [Doc.str, Doc.append, Doc.lit, Doc.nl]
  unfold attributes
  rw [h1]
  cases cfg.customRepr <;> rfl

theorem derived_false {l : List Str} (h : l ≠ [[]]) : derived false l = l := by
  have more : ∀ (ss : List Str) (s : Str), derived.derivedMore false s ss = s :: ss := by
    intro ss
    induction ss with
    | nil => intro s; rfl
    | cons t ss ih => intro s; rw [derived.derivedMore, ih]
  match l with
  | [] => rfl
  | [s] =>
    have : s ≠ [] := fun e => h (by rw [e])
    simp [derived, this]
  | s :: t :: ss => rw [derived, more]

theorem derived_true (init : List Str) (last : Str) : derived true (init ++ [last]) = init ++ [last ++ c! "Default"] := by
  have more : ∀ (ss : List Str) (s : Str), derived.derivedMore true s (ss ++ [last]) = s :: ss ++ [last ++ c! "Default"] := by
    intro ss
    induction ss with
    | nil => intro s; rfl
    | cons t ss ih => intro s; rw [List.cons_append, derived.derivedMore, ih]; rfl
  match init with
  | [] => rfl
  | [s] => rfl
  | s :: t :: ss => rw [List.cons_append, List.cons_append, derived, more]; rfl

/-- How the code of a struct begins, and the rest. -/
theorem struct_line (D : FileDescriptor) (cfg : Config) (m : Message) (s : StructDef) : ∃ body, (body = ln d!"pub struct {m.name} \{ }" ∨ ∃ l ds fs, body = structText m.name l ds fs) ∧ (structEntry D cfg m s).doc =
    ln d!"#[allow(clippy::derive_partial_eq_without_eq)]" ++
      deriveLine (derived s.default.isNone cfg.customStructDerive ++ [c! "Debug", c! "PartialEq", c! "Clone"]) ++ reprLine cfg.customRepr ++ body := by
  refine ⟨if m.isUnit then ln d!"pub struct {m.name} \{ }" else structText m.name (lifetime D cfg m) (deprecations cfg m) s.fields, ?_, ?_⟩
  · split
    · exact Or.inl rfl
    · exact Or.inr ⟨_, _, _, rfl⟩
  unfold structEntry
  simp only [Entry.doc]
  rw [attributes_line]

theorem docs_has {es : List Entry} {e : Entry} (h : e ∈ es) : Doc.Has (Entry.docs es) e.doc := by
  induction es with
  | nil => cases h
  | cons a es ih =>
    rw [Entry.docs]
    rcases List.mem_cons.mp h with rfl | h
    · exact Has.left (Has.refl _) _
    · exact Has.right _ (ih h)

theorem descend_docs {D : FileDescriptor} {cfg : Config} : ∀ {js : List Nat} {es : List Entry} {m t : Message},
    Holds D cfg es t → t.descend js = some m → ∃ es', Doc.Has (Entry.docs es) (Entry.docs es') ∧ Holds D cfg es' m
  | [], es, m, t, hh, hm => by
    have : t = m := Option.some.inj hm
    subst this
    exact ⟨es, Has.refl _, hh⟩
  | k :: js, es, m, t, hh, hm => by
    rw [Message.descend] at hm
    obtain ⟨y, hy, hm⟩ := Option.bind_eq_some_iff.mp hm
    have hne : t.messages ≠ [] := by intro h; rw [h] at hy; cases hy
    obtain ⟨sub, inn, hms, hinn, hmem⟩ := holds_inner hh (Or.inl hne)
    obtain ⟨esn, osn, _, _, hparts⟩ := inner_parts hinn
    have hsub : ∀ m ∈ t.messages, Holds D cfg inn m := holds_all hms (by
      intro e he
      rw [hparts]
      simp [he])
    obtain ⟨es', h1, h2⟩ := descend_docs (hsub y (List.mem_of_getElem? hy)) hm
    refine ⟨es', Has.trans (docs_has hmem) ?_, h2⟩
    rw [Entry.doc]
    exact Has.trans (Has.left (Has.right _ (Has.refl _)) _) h1

/-- The struct and its `impl Default`. -/
theorem holds_default {D : FileDescriptor} {cfg : Config} {es : List Entry} {m : Message} (h : Holds D cfg es m) :
    ∃ s, structDef D cfg m = some s ∧ structEntry D cfg m s ∈ es ∧
      ∀ ds, s.default = some ds → Entry.text (defaultText m.name (lifetime D cfg m) ds ++ Doc.nl) ∈ es := by
  obtain ⟨xs, hx, hs⟩ := h
  obtain ⟨name, fields, oneofs, nums, names, imported, pkg, messages, enums, module, index⟩ := m
  rw [messageEntries] at hx
  obtain ⟨own, ho, hx⟩ := Option.bind_eq_some_iff.mp hx
  have hsub : ∀ e ∈ own, e ∈ es := by
    intro e he
    apply hs
    split at hx
    · cases hx; exact he
    · obtain ⟨ms, _, hx⟩ := Option.bind_eq_some_iff.mp hx
      obtain ⟨inn, _, rfl⟩ := Option.map_eq_some_iff.mp hx
      exact List.mem_append_left _ he
  unfold ownEntries at ho
  obtain ⟨s, h1, ho⟩ := Option.bind_eq_some_iff.mp ho
  obtain ⟨cs, _, ho⟩ := Option.bind_eq_some_iff.mp ho
  obtain ⟨gs, _, rfl⟩ := Option.map_eq_some_iff.mp ho
  refine ⟨s, h1, hsub _ (by simp), fun ds hd => hsub _ ?_⟩
  apply List.mem_append_left
  apply List.mem_append_right
  unfold implEntries
  simp only [hd]
  simp

/-- The text has the struct of `m`, with the derived traits `ts`. -/
def StructDerives (text : Doc) (cfg : Config) (m : Message) (ts : List Str) : Prop :=
  ∃ body, Doc.Has text (ln d!"#[allow(clippy::derive_partial_eq_without_eq)]" ++ deriveLine ts ++ reprLine cfg.customRepr ++ body) ∧
    (body = ln d!"pub struct {m.name} \{ }" ∨ ∃ l ds fs, body = structText m.name l ds fs)

section
variable {junk : Str} {n : Nat} {j : Job} {d d' : Disk} (hn : j.noOutput = false)
  (h : writeProto junk n j d = (.ok (), d'))
  (h3 : ∀ text, d.file j.inFile = some text → OneSyntax text)

include hn h h3

theorem derives_written : ∃ p E text, j.out n d = some p ∧ j.compiled n d = some E ∧ d'.file p = some text.str ∧
    ∀ idx m, Own E idx → E.getMessage idx = some m → ∃ s, structDef E j.cfg m = some s ∧
      StructDerives text j.cfg m (derived s.default.isNone j.cfg.customStructDerive ++ [c! "Debug", c! "PartialEq", c! "Clone"]) ∧
      ∀ ds, s.default = some ds → Doc.Has text (defaultText m.name (lifetime E j.cfg m) ds) := by
  obtain ⟨p, E, es, h1, h2, h4, h5⟩ := C88_layout hn h h3
  refine ⟨p, E, Entry.docs es, h1, h2, h5, fun idx m ho hm => ?_⟩
  obtain ⟨i, is, t, rfl, ht, hi⟩ := ho
  have hm' : t.descend is = some m := by
    rw [FileDescriptor.getMessage, ht] at hm
    exact hm
  obtain ⟨es', h6, h7⟩ := descend_docs ((file_parts h4).2.1 t (List.mem_of_getElem? ht) hi) hm'
  obtain ⟨s, hs, hmem, hdf⟩ := holds_default h7
  obtain ⟨body, hb, hd⟩ := struct_line E j.cfg m s
  refine ⟨s, hs, ⟨body, ?_, hb⟩, fun ds hds => ?_⟩
  · rw [← hd]
    exact Has.trans h6 (docs_has hmem)
  · exact Has.trans h6 (Has.trans (docs_has (hdf ds hds)) (Has.left (Has.refl _) _))

/-- The struct of every message of the file derives the traits that were asked for, `Debug`, `PartialEq`, `Clone`, and `Default` unless
`impl Default` is written out, which then is in the file – provided that no traits were asked for or `impl Default` is written out. -/
theorem C90_written_partial : ∃ p E text, j.out n d = some p ∧ j.compiled n d = some E ∧ d'.file p = some text.str ∧
    ∀ idx m, Own E idx → E.getMessage idx = some m →
      ∃ s, structDef E j.cfg m = some s ∧ (∀ ds, s.default = some ds → Doc.Has text (defaultText m.name (lifetime E j.cfg m) ds)) ∧
        (j.cfg.customStructDerive = [] ∨ j.cfg.customStructDerive = [[]] → StructDerives text j.cfg m (traits [] s.default.isSome)) ∧
        (s.default.isSome → [] ∉ j.cfg.customStructDerive → StructDerives text j.cfg m (traits j.cfg.customStructDerive s.default.isSome)) := by
  obtain ⟨p, E, text, h1, h2, h4, h5⟩ := derives_written hn h h3
  refine ⟨p, E, text, h1, h2, h4, fun idx m ho hm => ?_⟩
  obtain ⟨s, hs, hd, hds⟩ := h5 idx m ho hm
  refine ⟨s, hs, hds, fun hc => ?_, fun hi hne => ?_⟩
  · have : derived s.default.isNone j.cfg.customStructDerive = if s.default.isSome then [] else [c! "Default"] := by
      rcases hc with hc | hc <;> rw [hc] <;> cases s.default <;> rfl
    rw [this] at hd
    exact hd
  · have hno : s.default.isNone = false := by cases hh : s.default <;> rw [hh] at hi <;> first | rfl | cases hi
    rw [hno, derived_false (fun e => hne (by rw [e]; exact List.mem_singleton.mpr rfl))] at hd
    unfold traits
    rw [hi]
    simpa using hd

/-- But whenever traits are asked for and `impl Default` is not written out, the last of the traits and `Default` are one word: for no
list of custom traits and no schema does such a struct derive the traits. -/
theorem C90_refuted {init : List Str} {last : Str} (hc : j.cfg.customStructDerive = init ++ [last]) :
    ∃ p E text, j.out n d = some p ∧ j.compiled n d = some E ∧ d'.file p = some text.str ∧
    ∀ idx m, Own E idx → E.getMessage idx = some m → ∃ s, structDef E j.cfg m = some s ∧
      (s.default = none → StructDerives text j.cfg m (init ++ [last ++ c! "Default", c! "Debug", c! "PartialEq", c! "Clone"])) := by
  obtain ⟨p, E, text, h1, h2, h4, h5⟩ := derives_written hn h h3
  refine ⟨p, E, text, h1, h2, h4, fun idx m ho hm => ?_⟩
  obtain ⟨s, hs, hd, hds⟩ := h5 idx m ho hm
  refine ⟨s, hs, fun hnone => ?_⟩
  rw [hnone, hc] at hd
  have := derived_true init last
  rw [show Option.isNone (none : Option (List (Str × Expr))) = true from rfl, this] at hd
  simpa using hd

end

/-! ## The theorems apply -/

set_option maxRecDepth 100000 in
/-- `pb-rs --custom_struct_derive Eq,Hash`: the file says `HashDefault`. With a default value the traits are right. -/
theorem C90_example : ∃ (d : Disk) (j : Job) (t : Str), j.noOutput = false ∧ j.cfg.customStructDerive = [c! "Eq", c! "Hash"] ∧
    (writeProto [] 1 j d).2.file (c! "x.rs") = some t ∧
    c! "#[derive(Eq, HashDefault, Debug, PartialEq, Clone)]\npub struct A {\n" <:+: t ∧
    c! "#[derive(Eq, Hash, Debug, PartialEq, Clone)]\npub struct B {\n" <:+: t ∧ c! "impl Default for B {\n" <:+: t := by
  refine ⟨disk [(c! "x.proto", c! "message A { optional int32 a = 1; } message B { required int32 a = 1 [default = 3]; }")] [],
    { inFile := c! "x.proto", outFile := c! "x.rs", cfg := { customStructDerive := [c! "Eq", c! "Hash"] } },
    ((writeProto [] 1 { inFile := c! "x.proto", outFile := c! "x.rs", cfg := { customStructDerive := [c! "Eq", c! "Hash"] } }
      (disk [(c! "x.proto", c! "message A { optional int32 a = 1; } message B { required int32 a = 1 [default = 3]; }")] [])).2.file (c! "x.rs")).getD [],
    rfl, rfl, by decide +kernel, by decide +kernel, by decide +kernel, by decide +kernel⟩

end QP.Rust
