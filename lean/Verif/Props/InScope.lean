import Verif.Proofs.InScope
import Verif.Props.PathsExample
set_option linter.unusedVariables false
/-!
# The names that generated code uses are in scope (C96)
-/

namespace QP.Rust
open QP.Pbrs QP.Gen

/-! ## Messages without contents -/

mutual
theorem isUnit_descend : ∀ (m : Message), m.isUnit = true → ∀ js x, m.descend js = some x → x.fields = [] ∧ x.oneofs = []
  | ⟨name, fields, oneofs, nums, names, imported, pkg, messages, enums, module, index⟩, h, js, x, hx => by
    rw [Message.isUnit] at h
    simp only [Bool.and_eq_true, List.isEmpty_iff] at h
    cases js with
    | nil => cases hx; exact h.1
    | cons j js =>
      rw [Message.descend] at hx
      obtain ⟨y, hy, hx⟩ := Option.bind_eq_some_iff.mp hx
      exact allUnit_descend messages h.2 y (List.mem_of_getElem? hy) js x hx
theorem allUnit_descend : ∀ (l : List Message), Message.allUnit l = true → ∀ m ∈ l, ∀ js x, m.descend js = some x → x.fields = [] ∧ x.oneofs = []
  | [], _, m, hm, _, _, _ => by cases hm
  | m' :: l, h, m, hm, js, x, hx => by
    rw [Message.allUnit] at h
    simp only [Bool.and_eq_true] at h
    cases hm with
    | head => exact isUnit_descend m' h.1 js x hx
    | tail _ hm => exact allUnit_descend l h.2 m hm js x hx
end

mutual
theorem isUnit_of : ∀ (m : Message), (∀ js x, m.descend js = some x → x.fields = [] ∧ x.oneofs = []) → m.isUnit = true
  | ⟨name, fields, oneofs, nums, names, imported, pkg, messages, enums, module, index⟩, h => by
    rw [Message.isUnit]
    simp only [Bool.and_eq_true, List.isEmpty_iff]
    refine ⟨h [] _ rfl, allUnit_of messages fun m hm js x hx => ?_⟩
    obtain ⟨i, hi⟩ := List.mem_iff_getElem?.mp hm
    refine h (i :: js) x ?_
    rw [Message.descend]
    simp only [hi, Option.bind_some]
    exact hx
theorem allUnit_of : ∀ (l : List Message), (∀ m ∈ l, ∀ js x, m.descend js = some x → x.fields = [] ∧ x.oneofs = []) → Message.allUnit l = true
  | [], _ => rfl
  | m :: l, h => by
    rw [Message.allUnit]
    simp only [Bool.and_eq_true]
    exact ⟨isUnit_of m (h m List.mem_cons_self), allUnit_of l fun m' hm => h m' (List.mem_cons_of_mem _ hm)⟩
end

/-- The messages for which pb-rs generates the short form are those that have no field and no oneof, and in which no message has one. -/
theorem C96_unit (m : Message) : m.isUnit = true ↔ ∀ js x, m.descend js = some x → x.fields = [] ∧ x.oneofs = [] :=
  ⟨isUnit_descend m, isUnit_of m⟩

theorem unit_down {t m : Message} {js : List Nat} (hd : t.descend js = some m) (h : t.isUnit = true) : m.isUnit = true := by
  refine isUnit_of m fun is x hx => isUnit_descend t h (js ++ is) x ?_
  rw [descend_append hd]
  exact hx

/-! ## What is imported where -/

section
variable {D : FileDescriptor} {cfg : Config} {filename : Str} {services : Nat} {es : List Entry}

theorem file_uses (h : fileEntries D cfg filename services = some es) : ∀ e ∈ crateUses D cfg, e ∈ es := by
  unfold fileEntries at h
  obtain ⟨en, he, h⟩ := Option.bind_eq_some_iff.mp h
  obtain ⟨ms, hms, rfl⟩ := Option.map_eq_some_iff.mp h
  intro e he
  simp [he]

theorem descend_uses {es : List Entry} : ∀ {js : List Nat} {ms : List Message} {m : Message} {j : Nat} {t : Message} {es' : List Entry},
    Holds D cfg es t → Clean es → ms[j]? = some t → t.descend js = some m → (∀ e ∈ commonUses D cfg ms, e ∈ es) →
    inside es ((namesAlong ms (j :: js)).dropLast.map (c! "mod_" ++ ·)) = some es' → ∃ ms', m ∈ ms' ∧ ∀ e ∈ commonUses D cfg ms', e ∈ es'
  | [], ms, m, j, t, es', hh, hc, ht, hm, hu, hi => by
    have : t = m := Option.some.inj hm
    subst this
    simp only [namesAlong, ht, List.dropLast_singleton, List.map_nil] at hi
    cases hi
    exact ⟨ms, List.mem_of_getElem? ht, hu⟩
  | k :: js, ms, m, j, t, es', hh, hc, ht, hm, hu, hi => by
    rw [Message.descend] at hm
    obtain ⟨y, hy, hm⟩ := Option.bind_eq_some_iff.mp hm
    have hne : t.messages ≠ [] := by intro h; rw [h] at hy; cases hy
    obtain ⟨sub, inn, hms, hinn, hmem⟩ := holds_inner hh (Or.inl hne)
    have hfind := find_mod (hc [] es rfl) hmem
    have hin : inside es [c! "mod_" ++ t.name] = some inn := by rw [inside, hfind]; rfl
    obtain ⟨esn, osn, _, _, hparts⟩ := inner_parts hinn
    have hsub : ∀ m ∈ t.messages, Holds D cfg inn m := holds_all hms (by
      intro e he
      rw [hparts]
      simp [he])
    have hnames : namesAlong ms (j :: k :: js) = t.name :: namesAlong t.messages (k :: js) := by rw [namesAlong, ht]
    have hne' : namesAlong t.messages (k :: js) ≠ [] := by rw [namesAlong, hy]; simp
    rw [hnames, List.dropLast_cons_of_ne_nil hne', List.map_cons, inside, hfind] at hi
    exact descend_uses (hsub y (List.mem_of_getElem? hy)) (hc.sub hin) hy hm (fun e he => by rw [hparts]; simp [he]) hi

/-- The module with the code of a message has the imports for this message. -/
theorem own_uses (h : fileEntries D cfg filename services = some es) (hc : Clean es) {idx : MessageIndex} {m : Message} (ho : Own D idx)
    (hm : D.getMessage idx = some m) (hu : m.isUnit = false) {es' : List Entry} (hi : inside es (home D idx) = some es') :
    (¬ ∀ m ∈ D.messages, m.isUnit = true) ∧ ∃ ms, m ∈ ms ∧ ∀ e ∈ commonUses D cfg ms, e ∈ es' := by
  obtain ⟨i, is, t, rfl, ht, hti⟩ := ho
  rw [FileDescriptor.getMessage, ht] at hm
  have hn : ¬ ∀ m ∈ D.messages, m.isUnit = true := by
    intro hall
    rw [unit_down hm (hall t (List.mem_of_getElem? ht))] at hu
    cases hu
  refine ⟨hn, descend_uses ((file_parts h).2.1 t (List.mem_of_getElem? ht) hti) hc ht hm (fun e he => file_uses h e ?_) hi⟩
  unfold crateUses
  rw [if_neg hn]
  simp [he]

theorem noText {cfg : Config} (hd : cfg.dontUseCow = false) : ∀ {t : FieldType}, Converted cfg t → hasText t = false
  | .map k v, h => by
    simp only [hasText, Bool.or_eq_false_iff]
    exact ⟨noText hd h.1, noText hd h.2⟩
  | .string_, h => by have h : cfg.dontUseCow = true := h; rw [hd] at h; cases h
  | .bytes_, h => by have h : cfg.dontUseCow = true := h; rw [hd] at h; cases h
  | .int32, _ | .int64, _ | .uint32, _ | .uint64, _ | .sint32, _ | .sint64, _ | .bool, _ | .fixed32, _ | .fixed64, _ | .sfixed32, _ | .sfixed64, _
  | .float, _ | .double, _ | .stringCow, _ | .bytesCow, _ | .message _, _ | .enum _, _ | .messageOrEnum _, _ => rfl

theorem cow_of {cfg : Config} : ∀ {t : FieldType}, Converted cfg t → t.hasCow = true → cfg.dontUseCow = false
  | .map k v, h, hc => by
    simp only [FieldType.hasCow, Bool.or_eq_true] at hc
    rcases hc with hc | hc
    · exact cow_of h.1 hc
    · exact cow_of h.2 hc
  | .stringCow, h, _ => h
  | .bytesCow, h, _ => h
  | .string_, _, hc | .bytes_, _, hc | .int32, _, hc | .int64, _, hc | .uint32, _, hc | .uint64, _, hc | .sint32, _, hc | .sint64, _, hc | .bool, _, hc
  | .fixed32, _, hc | .fixed64, _, hc | .sfixed32, _, hc | .sfixed64, _, hc | .float, _, hc | .double, _, hc | .message _, _, hc | .enum _, _, hc
  | .messageOrEnum _, _, hc => by cases hc

theorem brings_get {i : Nat} {l : List Str × Doc} (h : library[i]? = some l) {x : Str} {e : Entry} (hx : x ∈ l.1) (he : e.doc = l.2) : Brings x e :=
  ⟨l, List.mem_of_getElem? h, hx, he⟩

/-- What is known about a message when its names are looked up. -/
structure Usable (D : FileDescriptor) (cfg : Config) (idx : MessageIndex) (m : Message) : Prop where
  imported : m.imported = false
  index : m.index = idx
  converted : ∀ f ∈ m.allFields, Converted cfg f.typ
  map : ∀ f ∈ m.fields, f.frequency.generated = .map → f.typ.isMap = true

/-- Without `std`, two things must not be: `dont_use_cow`, and a message with a map for which `Default` is written out (see the
refutations). -/
structure Portable (D : FileDescriptor) (cfg : Config) (m : Message) : Prop where
  cow : cfg.nostd = true → cfg.dontUseCow = false
  map : cfg.nostd = true → cfg.hashbrown = false → m.mustGenerateImplDefault D cfg = true → ∀ f ∈ shownFields cfg m, f.frequency.generated ≠ .map

/-- The names that are available at a message that is not a unit. -/
theorem available (h : fileEntries D cfg filename services = some es) (hc : Clean es) (hn : NoNameClash es) {idx : MessageIndex} {m : Message}
    (ho : Own D idx) (hm : D.getMessage idx = some m) (hu : m.isUnit = false) (hU : Usable D cfg idx m) (hP : Portable D cfg m) :
    Base (fun x => x ∈ prelude cfg.nostd ∨ InScope es (home D idx) x) ∧
    (∀ f ∈ m.allFields, ForType (fun x => x ∈ prelude cfg.nostd ∨ InScope es (home D idx) x) f.typ ∧
      (f.boxed = true → c! "Box" ∈ prelude cfg.nostd ∨ InScope es (home D idx) (c! "Box"))) ∧
    (m.mustGenerateImplDefault D cfg = true → ∀ f ∈ shownFields cfg m, f.frequency.generated = .map →
      c! "HashMap" ∈ prelude cfg.nostd ∨ InScope es (home D idx) (c! "HashMap")) ∧
    (D.owned = true → InScope es (home D idx) (c! "TryFrom") ∧ InScope es (home D idx) (c! "TryInto")) ∧
    (D.owned = true → hasLifetime D cfg [] m.index = some true → c! "Box" ∈ prelude cfg.nostd ∨ InScope es (home D idx) (c! "Box")) := by
  obtain ⟨es', h1, h2, h3, h4, h5⟩ := own_inside h hc ho hm
  obtain ⟨hnu, ms, hmem, hcu⟩ := own_uses h hc ho hm hu h1
  have root : ∀ e x, e ∈ crateUses D cfg → Brings x e → InScope es (home D idx) x := by
    intro e x he hb
    obtain ⟨l, hl, hx, hd⟩ := hb
    refine scope_down h hn ⟨l, hl, hx⟩ [] (home D idx).length _ (by simp) (List.nil_prefix) (here h hn rfl (file_uses h e he) ⟨l, hl, hx, hd⟩) ?_
    intro p _ hp hne
    exact h5 p hp hne
  have near : ∀ e x, e ∈ commonUses D cfg ms → Brings x e → InScope es (home D idx) x := fun e x he hb => here h hn h1 (hcu e he) hb
  have long : ∀ x ∈ [c! "MessageInfo", c! "MessageRead", c! "MessageWrite", c! "BytesReader", c! "Writer", c! "WriterBackend", c! "Result",
       c! "PackedFixed", c! "PackedFixedIntoIter", c! "PackedFixedRefIter"], InScope es (home D idx) x := by
    intro x hx
    refine root (.use_ [c! "MessageInfo", c! "MessageRead", c! "MessageWrite", c! "BytesReader", c! "Writer", c! "WriterBackend", c! "Result",
       c! "PackedFixed", c! "PackedFixedIntoIter", c! "PackedFixedRefIter"] (ln d!"use quick_protobuf::\{MessageInfo, MessageRead, MessageWrite, BytesReader, Writer, WriterBackend, Result, PackedFixed, PackedFixedIntoIter, PackedFixedRefIter};"))
      x ?_ (brings_get (i := 11) rfl hx rfl)
    unfold crateUses
    rw [if_neg hnu]
    simp
  have sizes : ∀ x ∈ [c! "sizeof_len", c! "sizeof_varint", c! "sizeof_sint32", c! "sizeof_sint64"], InScope es (home D idx) x := by
    intro x hx
    refine root (.text (ln d!"use quick_protobuf::sizeofs::*;")) x ?_ (brings_get (i := 13) rfl hx rfl)
    unfold crateUses
    rw [if_neg hnu]
    simp
  have core : ∀ x ∈ [c! "Option", c! "Some", c! "None", c! "Ok", c! "Err", c! "Default", c! "From"], x ∈ prelude cfg.nostd := by
    intro x hx
    unfold prelude
    exact List.mem_append_left _ hx
  have std : cfg.nostd = false → ∀ x ∈ [c! "Vec", c! "Box", c! "String", c! "ToOwned", c! "ToString"], x ∈ prelude cfg.nostd := by
    intro hs x hx
    unfold prelude
    rw [hs]
    exact List.mem_append_right _ hx
  have vec : c! "Vec" ∈ prelude cfg.nostd ∨ InScope es (home D idx) (c! "Vec") := by
    cases hs : cfg.nostd
    · left; rw [← hs]; exact std hs _ (by decide)
    · right
      refine near (.use_ [c! "Vec"] (ln d!"use alloc::vec::Vec;")) _ ?_ (brings_get (i := 0) rfl List.mem_cons_self rfl)
      unfold commonUses
      simp [hs]
  have box : (cfg.nostd = true → (∃ m ∈ ms, (D.owned = true ∧ hasLifetime D cfg [] m.index = some true) ∨ ∃ f ∈ m.allFields, f.boxed = true)) →
      c! "Box" ∈ prelude cfg.nostd ∨ InScope es (home D idx) (c! "Box") := by
    intro hb
    cases hs : cfg.nostd
    · left; rw [← hs]; exact std hs _ (by decide)
    · right
      refine near (.use_ [c! "Box"] (Doc.nl ++ ln d!"use alloc::boxed::Box;")) _ ?_ (brings_get (i := 4) rfl List.mem_cons_self rfl)
      unfold commonUses
      rw [if_pos (show cfg.nostd = true ∧ _ from ⟨hs, hb hs⟩)]
      simp
  refine ⟨⟨fun x hx => Or.inl (core x hx), fun x hx => Or.inr (long x hx), fun x hx => Or.inr (sizes x hx), vec⟩, ?_, ?_, ?_, ?_⟩
  · intro f hf
    refine ⟨⟨fun hcow => Or.inr ?_, fun ht => ?_, fun hmap => Or.inr ?_⟩, fun hb => box fun _ => ⟨m, hmem, Or.inr ⟨f, hf, hb⟩⟩⟩
    · have hd := cow_of (hU.converted f hf) hcow
      have hc : cfg.dontUseCow = false ∧ ∃ m ∈ ms, ∃ f ∈ m.allFields, f.typ.hasCow = true ∨ (f.isPacked = true ∧ f.typ.isFixedSize = true) :=
        ⟨hd, m, hmem, f, hf, Or.inl hcow⟩
      refine near (.use_ [c! "Cow"] (if cfg.nostd then ln d!"use alloc::borrow::Cow;" else ln d!"use std::borrow::Cow;")) _ ?_ ?_
      · unfold commonUses
        rw [if_pos hc]
        simp
      · cases cfg.nostd
        · exact (brings_get (i := 1) rfl List.mem_cons_self rfl)
        · exact (brings_get (i := 2) rfl List.mem_cons_self rfl)
    · cases hs : cfg.nostd
      · rw [← hs]
        exact ⟨Or.inl (std hs _ (by decide)), Or.inl (std hs _ (by decide)), Or.inl (std hs _ (by decide))⟩
      · rw [noText (hP.cow hs) (hU.converted f hf)] at ht
        cases ht
    · have hc : ∃ m ∈ ms, m.imported = false ∧ ∃ f ∈ m.allFields, f.typ.isMap = true := ⟨m, hmem, hU.imported, f, hf, hmap⟩
      have hin : ∀ e, e ∈ (if cfg.hashbrown then [Entry.use_ [c! "HashMap"] (ln d!"use hashbrown::HashMap;"), .item [c! "KVMap"] (ln d!"type KVMap<K, V> = HashMap<K, V>;")]
          else if cfg.nostd then
            [.use_ [c! "BTreeMap"] (ln d!"use alloc::collections::BTreeMap;"), .item [c! "KVMap"] (ln d!"type KVMap<K, V> = BTreeMap<K, V>;")]
          else [.use_ [c! "HashMap"] (ln d!"use std::collections::HashMap;"), .item [c! "KVMap"] (ln d!"type KVMap<K, V> = HashMap<K, V>;")]) →
          e ∈ commonUses D cfg ms := by
        intro e he
        unfold commonUses
        rw [if_pos hc]
        exact List.mem_append_right _ he
      cases hh : cfg.hashbrown
      · cases hs : cfg.nostd
        · refine near (.item [c! "KVMap"] (ln d!"type KVMap<K, V> = HashMap<K, V>;")) _ (hin _ ?_) (brings_get (i := 8) rfl List.mem_cons_self rfl)
          rw [hh, hs]; simp
        · refine near (.item [c! "KVMap"] (ln d!"type KVMap<K, V> = BTreeMap<K, V>;")) _ (hin _ ?_) (brings_get (i := 9) rfl List.mem_cons_self rfl)
          rw [hh, hs]; simp
      · refine near (.item [c! "KVMap"] (ln d!"type KVMap<K, V> = HashMap<K, V>;")) _ (hin _ ?_) (brings_get (i := 8) rfl List.mem_cons_self rfl)
        rw [hh]; simp
  · intro hd f hf hg
    right
    have hmap := hU.map f (List.mem_filter.mp hf).1 hg
    have hc : ∃ m ∈ ms, m.imported = false ∧ ∃ f ∈ m.allFields, f.typ.isMap = true := ⟨m, hmem, hU.imported, f, mem_shownFields hf, hmap⟩
    cases hh : cfg.hashbrown
    · cases hs : cfg.nostd
      · refine near (.use_ [c! "HashMap"] (ln d!"use std::collections::HashMap;")) _ ?_ (brings_get (i := 6) rfl List.mem_cons_self rfl)
        unfold commonUses
        rw [if_pos hc, hh, hs]
        simp
      · exact absurd hg (hP.map hs hh hd f hf)
    · refine near (.use_ [c! "HashMap"] (ln d!"use hashbrown::HashMap;")) _ ?_ (brings_get (i := 5) rfl List.mem_cons_self rfl)
      unfold commonUses
      rw [if_pos hc, hh]
      simp
  · intro hw
    have : ∀ x ∈ [c! "TryFrom", c! "TryInto"], InScope es (home D idx) x := by
      intro x hx
      refine root (.use_ [c! "TryFrom", c! "TryInto"] (ln d!"use core::convert::\{TryFrom, TryInto};")) x ?_ (brings_get (i := 12) rfl hx rfl)
      unfold crateUses
      rw [if_neg hnu, hw]
      simp
    exact ⟨this _ (by simp), this _ (by simp)⟩
  · intro hw hl
    exact box fun _ => ⟨m, hmem, Or.inl ⟨hw, hl⟩⟩

/-- What is in scope comes from a line of the module or of one around it. -/
theorem InScope.source {q : Path} {x : Str} (h : InScope es q x) : ∃ r es' e, r <+: q ∧ inside es r = some es' ∧ e ∈ es' ∧ Brings x e := by
  induction h with
  | @here q es' x e hi he hb _ => exact ⟨q, es', e, List.prefix_refl q, hi, he, hb⟩
  | @outer q es' x _ _ _ _ _ ih =>
    obtain ⟨r, es1, e, h1, h2⟩ := ih
    exact ⟨r, es1, e, h1.trans (List.dropLast_prefix q), h2⟩

theorem lifetime_unit {idx : MessageIndex} {m : Message} (hm : D.getMessage idx = some m) (hu : m.isUnit = true) :
    hasLifetime D cfg [] idx = some false := by
  have h0 := isUnit_descend m hu [] m rfl
  unfold hasLifetime
  rw [hasLifetimeN]
  have : m.allFields = [] := by unfold Message.allFields; rw [h0.1, h0.2]; rfl
  simp only [hm, this, List.not_mem_nil, if_false]
  rfl

/-- Every name of the library that occurs in what is generated for a message is in the prelude, or in scope in the module that has this
code: imported there or, through `use super::*`, in a module around it. -/
theorem C96_message_partial (h : fileEntries D cfg filename services = some es) (hc : Clean es) (hn : NoNameClash es) {idx : MessageIndex} {m : Message}
    (ho : Own D idx) (hm : D.getMessage idx = some m) (hU : Usable D cfg idx m) (hP : Portable D cfg m) :
    ∃ es' s cs gs, inside es (home D idx) = some es' ∧ structDef D cfg m = some s ∧ constItems D cfg m = some cs ∧ getterItems D cfg m = some gs ∧
      (∀ e ∈ structEntry D cfg m s :: implEntries D cfg m s cs gs ++ ownedEntries D cfg m, e ∈ es') ∧
      ∀ x ∈ itemUses s cs gs cfg.genInfo D.owned (decide (hasLifetime D cfg [] m.index = some true)),
        x ∈ prelude cfg.nostd ∨ InScope es (home D idx) x := by
  obtain ⟨es', h1, h2, h3, h4, h5⟩ := own_inside h hc ho hm
  obtain ⟨own, hown, hsub⟩ : ∃ own, ownEntries D cfg m = some own ∧ ∀ e ∈ own, e ∈ es' := by
    obtain ⟨xs, hx, hs⟩ := h2
    obtain ⟨name, fields, oneofs, nums, names, imported, pkg, messages, enums, module, index⟩ := m
    rw [messageEntries] at hx
    obtain ⟨own, ho, hx⟩ := Option.bind_eq_some_iff.mp hx
    refine ⟨own, ho, fun e he => hs e ?_⟩
    split at hx
    · cases hx; exact he
    · obtain ⟨ms, _, hx⟩ := Option.bind_eq_some_iff.mp hx
      obtain ⟨inn, _, rfl⟩ := Option.map_eq_some_iff.mp hx
      exact List.mem_append_left _ he
  unfold ownEntries at hown
  obtain ⟨s, hs, hown⟩ := Option.bind_eq_some_iff.mp hown
  obtain ⟨cs, hcs, hown⟩ := Option.bind_eq_some_iff.mp hown
  obtain ⟨gs, hgs, rfl⟩ := Option.map_eq_some_iff.mp hown
  refine ⟨es', s, cs, gs, h1, hs, hcs, hgs, ?_, ?_⟩
  · intro e he
    refine hsub e ?_
    simp only [List.cons_append, List.mem_cons, List.mem_append] at he
    simp only [List.mem_append, List.mem_cons]
    tauto
  · cases hu : m.isUnit
    · obtain ⟨hb, hf, hd, hw, hx⟩ := available h hc hn ho hm hu hU hP
      exact item_uses hb hu hf hd hs hcs hgs (fun h => ⟨Or.inr (hw h).1, Or.inr (hw h).2⟩) (fun h1 h2 => hx h1 (of_decide_eq_true h2))
    · have h0 := isUnit_descend m hu [] m rfl
      have root : ∀ e x, e ∈ crateUses D cfg → Brings x e → InScope es (home D idx) x := by
        intro e x he hb
        obtain ⟨l, hl, hx, hd⟩ := hb
        refine scope_down h hn ⟨l, hl, hx⟩ [] (home D idx).length _ (by simp) (List.nil_prefix) (here h hn rfl (file_uses h e he) ⟨l, hl, hx, hd⟩) ?_
        intro p _ hp hne
        exact h5 p hp hne
      have lib : ∀ x ∈ [c! "MessageInfo", c! "MessageRead", c! "MessageWrite", c! "BytesReader", c! "Result"], InScope es (home D idx) x := by
        intro x hx
        by_cases hnu : ∀ m ∈ D.messages, m.isUnit = true
        · refine root (.use_ [c! "BytesReader", c! "Result", c! "MessageInfo", c! "MessageRead", c! "MessageWrite"]
            (ln d!"use quick_protobuf::\{BytesReader, Result, MessageInfo, MessageRead, MessageWrite};")) x ?_ (brings_get (i := 10) rfl ?_ rfl)
          · unfold crateUses
            rw [if_pos hnu]
            simp
          · revert x; decide
        · refine root (.use_ [c! "MessageInfo", c! "MessageRead", c! "MessageWrite", c! "BytesReader", c! "Writer", c! "WriterBackend", c! "Result",
              c! "PackedFixed", c! "PackedFixedIntoIter", c! "PackedFixedRefIter"]
            (ln d!"use quick_protobuf::\{MessageInfo, MessageRead, MessageWrite, BytesReader, Writer, WriterBackend, Result, PackedFixed, PackedFixedIntoIter, PackedFixedRefIter};"))
            x ?_ (brings_get (i := 11) rfl ?_ rfl)
          · unfold crateUses
            rw [if_neg hnu]
            simp
          · revert x; decide
      have core : ∀ x ∈ [c! "Option", c! "Some", c! "None", c! "Ok", c! "Err", c! "Default", c! "From"], x ∈ prelude cfg.nostd := by
        intro x hx
        unfold prelude
        exact List.mem_append_left _ hx
      have tf : D.owned = true → InScope es (home D idx) (c! "TryFrom") := by
        intro hw
        refine root (.use_ [c! "TryFrom", c! "TryInto"] (ln d!"use core::convert::\{TryFrom, TryInto};")) _ ?_
          (brings_get (i := 12) rfl List.mem_cons_self rfl)
        unfold crateUses
        simp only [hw, if_true]
        split <;> simp
      have hl : decide (hasLifetime D cfg [] m.index = some true) = false := by
        rw [hU.index, lifetime_unit hm hu]; rfl
      have hcs0 : cs = [] := by
        have : defaultedFields D cfg m = [] := by unfold defaultedFields; rw [h0.1]; rfl
        unfold constItems at hcs
        rw [this] at hcs
        exact (Option.some.inj hcs).symm
      have hgs0 : gs = [] := by
        have : defaultedFields D cfg m = [] := by unfold defaultedFields; rw [h0.1]; rfl
        unfold getterItems at hgs
        rw [this] at hgs
        exact (Option.some.inj hgs).symm
      subst hcs0 hgs0
      unfold structDef at hs
      obtain ⟨fields, g1, hs⟩ := Option.bind_eq_some_iff.mp hs
      obtain ⟨size, g2, hs⟩ := Option.bind_eq_some_iff.mp hs
      obtain ⟨write, g3, hs⟩ := Option.bind_eq_some_iff.mp hs
      obtain ⟨read, g4, hs⟩ := Option.bind_eq_some_iff.mp hs
      obtain ⟨dflt, g5, rfl⟩ := Option.map_eq_some_iff.mp hs
      have hf0 : fields = [] := by
        unfold structFields shownFields at g1
        rw [h0.1, h0.2] at g1
        exact (Option.some.inj g1).symm
      have hd0 : m.mustGenerateImplDefault D cfg = false := by
        unfold Message.mustGenerateImplDefault
        rw [h0.1]
        rfl
      subst hf0
      rw [hl]
      simp only [itemUses, hu, hd0, Bool.false_eq_true, if_false, if_true, List.flatMap_nil, List.nil_append, List.forall_mem_append, List.forall_mem_cons,
        List.cons_append, List.append_assoc, unitReadBody, Body.needs, List.flatMap_cons, Stmt.needs, Expr.needs, Exprs.needs, Exprs.one, Meth.needs, Fn.needs,
        List.append_nil]
      refine ⟨Or.inr (lib _ (by decide)), Or.inr (lib _ (by decide)), Or.inr (lib _ (by decide)), Or.inl (core _ (by decide)), Or.inl (core _ (by decide)),
        Or.inr (lib _ (by decide)), ?_, ?_⟩
      · split
        · intro x hx; rw [List.mem_singleton.mp hx]; exact Or.inr (lib _ (by decide))
        · intro _ h; cases h
      · cases hw : D.owned
        · intro _ h; cases h
        · simp only [if_true, List.forall_mem_cons]
          exact ⟨Or.inr (tf hw), Or.inr (lib _ (by decide)), Or.inl (core _ (by decide)), Or.inr (lib _ (by decide)), Or.inr (lib _ (by decide)),
            fun _ h => (by cases h)⟩

/-- The same for the enum of a oneof, in the module it is in. -/
theorem C96_oneof_partial (h : fileEntries D cfg filename services = some es) (hc : Clean es) (hn : NoNameClash es) {idx : MessageIndex} {m : Message}
    (ho : Own D idx) (hm : D.getMessage idx = some m) (hU : Usable D cfg idx m) (hP : Portable D cfg m) {o : OneOf} (hoo : o ∈ m.oneofs) :
    ∃ es' x vs, inside es (inner D idx) = some es' ∧ oneofEntry D cfg o = some x ∧ x ∈ es' ∧ variantTys D cfg o = some vs ∧
      ∀ x ∈ vs.flatMap (·.2.needs), x ∈ prelude cfg.nostd ∨ InScope es (inner D idx) x := by
  obtain ⟨ms, inn, hms, hinn, hin, _⟩ := inner_inside h hc ho hm (Or.inr (Or.inr (List.ne_nil_of_mem hoo)))
  obtain ⟨es', h1, h2, h3, h4, h5⟩ := own_inside h hc ho hm
  have hgl := globs_inner hms hinn (Or.inr (List.ne_nil_of_mem hoo))
  obtain ⟨xs, ys, _, hys, hparts⟩ := inner_parts hinn
  obtain ⟨x, hx, hex⟩ := mapM_all hys o hoo
  have hv : ∃ vs, variantTys D cfg o = some vs := by
    unfold oneofEntry at hex
    obtain ⟨l, _, hex⟩ := Option.bind_eq_some_iff.mp hex
    obtain ⟨vs, hvs, _⟩ := Option.map_eq_some_iff.mp hex
    exact ⟨vs, hvs⟩
  obtain ⟨vs, hvs⟩ := hv
  have hu : m.isUnit = false := by
    cases hu : m.isUnit
    · rfl
    · rw [(isUnit_descend m hu [] m rfl).2] at hoo; cases hoo
  obtain ⟨hb, hf, _, _, _⟩ := available h hc hn ho hm hu hU hP
  refine ⟨inn, x, vs, hin, hex, by rw [hparts]; simp [hx], hvs, fun y hy => ?_⟩
  have := variant_uses hb (fun f hm' => hf f (mem_shown hoo hm')) hvs y hy
  rcases this with h' | h'
  · exact Or.inl h'
  · right
    have hlib : ∃ l ∈ library, y ∈ l.1 := by
      obtain ⟨_, _, _, _, _, _, l, hl, hy, _⟩ := h'.source
      exact ⟨l, hl, hy⟩
    have hpre : home D idx <+: inner D idx := by rw [h4]; exact List.prefix_append _ _
    refine scope_down h hn hlib (home D idx) 1 (inner D idx) (by rw [h4]; simp) hpre h' ?_
    intro p hp1 hp2 hp3
    rw [h4] at hp2
    rcases List.prefix_concat_iff.mp hp2 with rfl | hp2
    · exact ⟨inn, by rw [← h4]; exact hin, hgl⟩
    · exact absurd (hp2.eq_of_length (by have := hp1.length_le; have := hp2.length_le; omega)) hp3

/-! ## Runs of pb-rs -/

theorem converted_one {cfg : Config} {D : FileDescriptor} {m : Message} {t t' : FieldType} (hr : t.rawOne = true) (h : ResolvesOne D m t t') :
    Converted cfg (if cfg.dontUseCow then t'.ownedOne else t') ∧ t'.isMap = false := by
  cases t with
  | messageOrEnum n =>
    obtain ⟨_, _, _, _, hd, _⟩ := h
    cases hd <;> (cases cfg.dontUseCow <;> exact ⟨trivial, rfl⟩)
  | map k v => cases hr
  | string_ => cases hr
  | bytes_ => cases hr
  | message _ => cases hr
  | enum _ => cases hr
  | stringCow =>
    have h : t' = _ := h
    subst h
    cases hd : cfg.dontUseCow <;> exact ⟨hd, rfl⟩
  | bytesCow =>
    have h : t' = _ := h
    subst h
    cases hd : cfg.dontUseCow <;> exact ⟨hd, rfl⟩
  | _ =>
    have h : t' = _ := h
    subst h
    cases hd : cfg.dontUseCow <;> exact ⟨trivial, rfl⟩

theorem converted_of {cfg : Config} {D : FileDescriptor} {m : Message} {t t' : FieldType} (hr : t.raw = true) (h : ResolvesTo D m t t') :
    Converted cfg (if cfg.dontUseCow then t'.owned else t') := by
  have key : ∀ {t : FieldType}, t.rawOne = true → ResolvesOne D m t t' → Converted cfg (if cfg.dontUseCow then t'.owned else t') := by
    intro t hr h
    obtain ⟨a, b⟩ := converted_one (cfg := cfg) hr h
    have ho : t'.owned = t'.ownedOne := by cases t' <;> first | rfl | (cases b; done)
    rw [ho]
    exact a
  cases t with
  | map k v =>
    obtain ⟨k', v', rfl, h1, h2⟩ := h
    have hr : (k.rawOne && v.rawOne) = true := hr
    rw [Bool.and_eq_true] at hr
    obtain ⟨a, _⟩ := converted_one (cfg := cfg) hr.1 h1
    obtain ⟨b, _⟩ := converted_one (cfg := cfg) hr.2 h2
    revert a b
    cases cfg.dontUseCow <;> exact fun a b => ⟨a, b⟩
  | int32 => exact key (t := .int32) hr h
  | int64 => exact key (t := .int64) hr h
  | uint32 => exact key (t := .uint32) hr h
  | uint64 => exact key (t := .uint64) hr h
  | sint32 => exact key (t := .sint32) hr h
  | sint64 => exact key (t := .sint64) hr h
  | bool => exact key (t := .bool) hr h
  | fixed32 => exact key (t := .fixed32) hr h
  | fixed64 => exact key (t := .fixed64) hr h
  | sfixed32 => exact key (t := .sfixed32) hr h
  | sfixed64 => exact key (t := .sfixed64) hr h
  | float => exact key (t := .float) hr h
  | double => exact key (t := .double) hr h
  | string_ => exact key (t := .string_) hr h
  | bytes_ => exact key (t := .bytes_) hr h
  | stringCow => exact key (t := .stringCow) hr h
  | bytesCow => exact key (t := .bytesCow) hr h
  | message x => exact key (t := .message x) hr h
  | enum x => exact key (t := .enum x) hr h
  | messageOrEnum x => exact key (t := .messageOrEnum x) hr h

/-- In a run every message of the file is as the theorems above want it. -/
theorem run_usable {n : Nat} {j : Job} {d : Disk} {D E : FileDescriptor} (hr : readProtoFile d.file j.search n j.inFile = .ok D) (hf : NoNestedMaps D)
    (hE : j.compiled n d = some E) {base : Path} (hL : Located E base) {idx : MessageIndex} {m : Message} (ho : Own E idx) (hm : E.getMessage idx = some m) :
    Usable E j.cfg idx m := by
  obtain ⟨D', hc, rfl⟩ := compiled_compile hr hE
  have hm' := hm
  rw [printed_get] at hm'
  have hP : Parsed ({ D with owned := j.cfg.owned } : FileDescriptor) := parsed_owned _ (C68_parsed hr hf)
  refine ⟨(hL.messages idx m ho hm).1, compile_indexOk hc idx m ?_, ?_, ?_⟩
  · exact hm'
  · intro f hfm
    obtain ⟨_, _, _, _, H, _, hv, hfc⟩ := compile_fields hc
    obtain ⟨m0, hm0, _, _, hall⟩ := hv.message (m' := m) hm'
    rw [hall] at hfm
    obtain ⟨f0, hf0, rfl⟩ := List.mem_map.mp hfm
    obtain ⟨t, ht, h2⟩ := (hfc idx m0 hm0 f0 hf0).1.typ
    rw [h2]
    exact converted_of (hP.raw idx m0 hm0 f0 hf0) ht
  · intro f hfm hg
    have := ((compile_sane hP hc (i := idx) (m' := m) hm').fields f hfm).map
    rw [← this]
    exact gen_map hg

/-- A run of pb-rs: the file that is written is that of a list of entries, and if no two things in a module have the same name and none has
the name of something that pb-rs itself uses, every name of the library in the code of every message is in scope there. -/
theorem C96_run_partial {junk : Str} {n : Nat} {j : Job} {d d' : Disk} {D : FileDescriptor} (hn : j.noOutput = false)
    (h : writeProto junk n j d = (.ok (), d')) (hr : readProtoFile d.file j.search n j.inFile = .ok D) (hf : NoNestedMaps D)
    (h3 : ∀ text, d.file j.inFile = some text → OneSyntax text)
    {text r : Str} {F : Parse.File} (ht : d.file j.inFile = some text) (hF : Parse.readProto text = .ok F r) (hk : NamesKept F.desc) :
    ∃ p E es, j.out n d = some p ∧ j.compiled n d = some E ∧
      fileEntries E j.cfg (splitSlash j.inFile).2 (servicesOf ((d.file j.inFile).getD [])) = some es ∧ d'.file p = some (Entry.docs es).str ∧
      (Clean es → NoNameClash es → ∀ idx m, Own E idx → E.getMessage idx = some m → Portable E j.cfg m →
        (∃ es' s cs gs, inside es (home E idx) = some es' ∧ structDef E j.cfg m = some s ∧ constItems E j.cfg m = some cs ∧
          getterItems E j.cfg m = some gs ∧ (∀ e ∈ structEntry E j.cfg m s :: implEntries E j.cfg m s cs gs ++ ownedEntries E j.cfg m, e ∈ es') ∧
          ∀ x ∈ itemUses s cs gs j.cfg.genInfo E.owned (decide (hasLifetime E j.cfg [] m.index = some true)),
            x ∈ prelude j.cfg.nostd ∨ InScope es (home E idx) x) ∧
        ∀ o ∈ m.oneofs, ∃ es' x vs, inside es (inner E idx) = some es' ∧ oneofEntry E j.cfg o = some x ∧ x ∈ es' ∧ variantTys E j.cfg o = some vs ∧
          ∀ x ∈ vs.flatMap (·.2.needs), x ∈ prelude j.cfg.nostd ∨ InScope es (inner E idx) x) := by
  obtain ⟨p, E, es, g1, g2, g3, g4⟩ := C88_layout hn h h3
  have hL := C89_located hr g2 ht hF hk
  refine ⟨p, E, es, g1, g2, g3, g4, fun hc hcl idx m ho hm hP => ?_⟩
  have hU := run_usable hr hf g2 hL ho hm
  exact ⟨C96_message_partial g3 hc hcl ho hm hU hP, fun o hoo => C96_oneof_partial g3 hc hcl ho hm hU hP hoo⟩

end

/-! ## Checking -/

/-- Does the entry bring in `x`? -/
def bringsB (x : Str) (e : Entry) : Bool := library.any fun l => l.1.contains x && decide (e.doc.str = l.2.str)

theorem brings_iff {x : Str} {e : Entry} : bringsB x e = true ↔ Brings x e := by
  unfold bringsB Brings
  simp only [List.any_eq_true, Bool.and_eq_true, decide_eq_true_eq, List.contains_iff_mem]
  exact ⟨fun ⟨l, h1, h2, h3⟩ => ⟨l, h1, h2, doc_ext h3⟩, fun ⟨l, h1, h2, h3⟩ => ⟨l, h1, h2, by rw [h3]⟩⟩

mutual
/-- No declaration has the name of something of the library, in this entry or below. -/
def Entry.clashFreeB : Entry → Bool
  | .mod_ x es => !(library.any fun l => l.1.contains x) && Entry.clashFreeAllB es
  | e => e.declares.all fun x => !(library.any fun l => l.1.contains x) || bringsB x e
def Entry.clashFreeAllB : List Entry → Bool
  | [] => true
  | e :: es => e.clashFreeB && Entry.clashFreeAllB es
end

theorem noNameClash_of {es : List Entry} (h : Entry.clashFreeAllB es = true) : NoNameClash es := by
  have all : ∀ es : List Entry, Entry.clashFreeAllB es = true → ∀ e ∈ es, e.clashFreeB = true := by
    intro es
    induction es with
    | nil => intro _ _ h; cases h
    | cons a es ih =>
      intro h e he
      simp only [Entry.clashFreeAllB, Bool.and_eq_true] at h
      rcases List.mem_cons.mp he with rfl | he
      · exact h.1
      · exact ih h.2 e he
  intro p
  induction p generalizing es with
  | nil =>
    intro es' hi e he x hx hl
    cases hi
    have h1 := all es h e he
    have lib : (library.any fun l => l.1.contains x) = true := by
      obtain ⟨l, hl, hx⟩ := hl
      exact List.any_eq_true.mpr ⟨l, hl, List.contains_iff_mem.mpr hx⟩
    cases e with
    | mod_ y sub =>
      have hx : x = y := List.mem_singleton.mp hx
      subst hx
      simp only [Entry.clashFreeB, Bool.and_eq_true, lib] at h1
      cases h1.1
    | supers k => cases hx
    | item ns t =>
      have := List.all_eq_true.mp h1 x hx
      rw [lib] at this
      exact brings_iff.mp this
    | use_ ns t => cases hx
  | cons x p ih =>
    intro es' hi
    rw [inside] at hi
    obtain ⟨ei, hf, hi⟩ := Option.bind_eq_some_iff.mp hi
    have := all es h _ (findSome_mod hf)
    simp only [Entry.clashFreeB, Bool.and_eq_true] at this
    exact ih this.2 es' hi

theorem not_inScope {es : List Entry} {x : Str} (h : es.all (fun e => !bringsB x e) = true) : ¬ InScope es [] x := by
  intro hs
  obtain ⟨r, es', e, h1, h2, h3, h4⟩ := hs.source
  have : r = [] := List.prefix_nil.mp h1
  subst this
  cases h2
  have := List.all_eq_true.mp h e h3
  rw [brings_iff.mpr h4] at this
  cases this

end QP.Rust
