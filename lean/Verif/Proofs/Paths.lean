import Verif.Spec.Paths
import Verif.Proofs.Layout
set_option linter.unusedVariables false
/-!
# Paths lead to what they are meant to
-/

namespace QP.Rust
open QP.Pbrs

/-! ## Modules -/

theorem inside_append (es : List Entry) (p q : Path) : inside es (p ++ q) = (inside es p).bind fun es' => inside es' q := by
  induction p generalizing es with
  | nil => rfl
  | cons x p ih =>
    simp only [List.cons_append, inside]
    cases es.findSome? (Entry.named x) with
    | none => rfl
    | some e => exact ih e

theorem Clean.sub {es es' : List Entry} {p : Path} (h : Clean es) (hp : inside es p = some es') : Clean es' := by
  intro q es'' hq
  exact h (p ++ q) es'' (by rw [inside_append, hp]; exact hq)

theorem named_mod {x : Str} {e : Entry} {es' : List Entry} (h : e.named x = some es') : e = .mod_ x es' := by
  cases e with
  | mod_ y es =>
    simp only [Entry.named] at h
    split at h
    · rename_i hy; subst hy; cases h; rfl
    · cases h
  | _ => cases h

theorem findSome_mod {es : List Entry} {x : Str} {es' : List Entry} (h : es.findSome? (Entry.named x) = some es') : Entry.mod_ x es' ∈ es := by
  obtain ⟨e, he, hn⟩ := List.exists_of_findSome?_eq_some h
  rw [named_mod hn] at he
  exact he

/-- The only module of that name is found. -/
theorem find_mod {x : Str} {es' : List Entry} : ∀ {es : List Entry}, (names es).Nodup → Entry.mod_ x es' ∈ es →
    es.findSome? (Entry.named x) = some es'
  | [], _, h => by cases h
  | e :: es, hn, h => by
    have hn' : (e.declares ++ e.imports).Nodup ∧ (names es).Nodup ∧ ∀ a ∈ e.declares ++ e.imports, ∀ b ∈ names es, a ≠ b := by
      have : names (e :: es) = (e.declares ++ e.imports) ++ names es := rfl
      rw [this] at hn
      exact List.nodup_append.mp hn
    rw [List.findSome?_cons]
    cases h with
    | head => simp [Entry.named]
    | tail _ h =>
      cases hx : e.named x with
      | none => exact find_mod hn'.2.1 h
      | some y =>
        have := named_mod hx
        subst this
        exact absurd rfl (hn'.2.2 x (by simp [Entry.declares]) x (List.mem_flatMap.mpr ⟨_, h, by simp [Entry.declares]⟩))

theorem mem_names {e : Entry} {es : List Entry} (h : e ∈ es) {x : Str} (hx : x ∈ e.declares) : x ∈ names es :=
  List.mem_flatMap.mpr ⟨e, h, List.mem_append_left _ hx⟩

theorem globs_append (a b : List Entry) : globs (a ++ b) = globs a ++ globs b := List.filterMap_append

/-- A name that no module on the way hides is found from further inside. -/
theorem finds_up {crate es : List Entry} {file : Path} (hi : inside crate file = some es) {x : Str} {p : Path} (hf : Finds crate file x p) :
    ∀ (q : Path), (∀ r, r <+: q → r ≠ [] → ∃ es', inside es r = some es' ∧ globs es' = [1]) →
      (∀ r es', r <+: q → r ≠ [] → inside es r = some es' → x ∉ names es') → Finds crate (file ++ q) x p := by
  intro q
  induction hn : q.length generalizing q with
  | zero =>
    intro _ _
    have := List.length_eq_zero_iff.mp hn
    subst this
    rw [List.append_nil]
    exact hf
  | succ n ih =>
    intro h1 h2
    have hq : q ≠ [] := by rintro rfl; cases hn
    obtain ⟨es', he', hg⟩ := h1 q (List.prefix_refl q) hq
    have hin : inside crate (file ++ q) = some es' := by rw [inside_append, hi]; exact he'
    refine Finds.glob hin (h2 q es' (List.prefix_refl q) hq he') hg (by rw [List.length_append]; omega) ?_
    have ht : (file ++ q).take ((file ++ q).length - 1) = file ++ q.take (q.length - 1) := by
      rw [List.length_append, List.take_append, List.take_of_length_le (by omega)]
      congr 2
      omega
    rw [ht]
    have hpre : q.take (q.length - 1) <+: q := List.take_prefix _ _
    refine ih _ (by rw [List.length_take]; omega) (fun r hr => h1 r (hr.trans hpre)) (fun r es' hr => h2 r es' (hr.trans hpre))

/-! ## The entries of a message -/

section
variable {D : FileDescriptor} {cfg : Config}

/-- `es` has everything about the message. -/
def Holds (D : FileDescriptor) (cfg : Config) (es : List Entry) (m : Message) : Prop :=
  ∃ xs, messageEntries D cfg m = some xs ∧ ∀ e ∈ xs, e ∈ es

theorem holds_all {es : List Entry} : ∀ {ms : List Message} {xs : List Entry}, messagesEntries D cfg ms = some xs → (∀ e ∈ xs, e ∈ es) →
    ∀ m ∈ ms, Holds D cfg es m
  | [], _, _, _, m, hm => by cases hm
  | m' :: ms, xs, h, hs, m, hm => by
    rw [messagesEntries] at h
    obtain ⟨a, ha, h⟩ := Option.bind_eq_some_iff.mp h
    obtain ⟨b, hb, rfl⟩ := Option.map_eq_some_iff.mp h
    cases hm with
    | head => exact ⟨a, ha, fun e he => hs e (List.mem_append_left _ he)⟩
    | tail _ hm => exact holds_all hb (fun e he => hs e (List.mem_append_right _ he)) m hm

theorem holds_struct {es : List Entry} {m : Message} (h : Holds D cfg es m) : ∃ s, structDef D cfg m = some s ∧ structEntry D cfg m s ∈ es := by
  obtain ⟨xs, hx, hs⟩ := h
  obtain ⟨name, fields, oneofs, nums, names, imported, pkg, messages, enums, module, index⟩ := m
  rw [messageEntries] at hx
  obtain ⟨own, ho, hx⟩ := Option.bind_eq_some_iff.mp hx
  have hsub : ∀ e ∈ own, e ∈ es := by
    intro e he
    apply hs
    split at hx
    · cases hx; exact he
    · obtain ⟨ms, _, hx⟩ := Option.bind_eq_some_iff.mp hx
      obtain ⟨inn, _, rfl⟩ := Option.map_eq_some_iff.mp hx
      exact List.mem_append_left _ he
  unfold ownEntries at ho
  obtain ⟨s, h1, ho⟩ := Option.bind_eq_some_iff.mp ho
  obtain ⟨cs, _, ho⟩ := Option.bind_eq_some_iff.mp ho
  obtain ⟨gs, _, rfl⟩ := Option.map_eq_some_iff.mp ho
  exact ⟨s, h1, hsub _ (by simp)⟩

/-- The module for what is declared in a message. -/
theorem holds_inner {es : List Entry} {m : Message} (h : Holds D cfg es m) (hne : m.messages ≠ [] ∨ m.enums ≠ [] ∨ m.oneofs ≠ []) :
    ∃ ms inn, messagesEntries D cfg m.messages = some ms ∧ innerEntries D cfg m ms = some inn ∧ Entry.mod_ (c! "mod_" ++ m.name) inn ∈ es := by
  obtain ⟨xs, hx, hs⟩ := h
  obtain ⟨name, fields, oneofs, nums, names, imported, pkg, messages, enums, module, index⟩ := m
  rw [messageEntries] at hx
  obtain ⟨own, ho, hx⟩ := Option.bind_eq_some_iff.mp hx
  have hc : (messages.isEmpty && enums.isEmpty && oneofs.isEmpty) = false := by
    simp only at hne
    cases messages <;> cases enums <;> cases oneofs <;> first | rfl | simp at hne
  rw [hc] at hx
  simp only [Bool.false_eq_true, if_false] at hx
  obtain ⟨ms, hms, hx⟩ := Option.bind_eq_some_iff.mp hx
  obtain ⟨inn, hinn, rfl⟩ := Option.map_eq_some_iff.mp hx
  exact ⟨ms, inn, hms, hinn, hs _ (by simp)⟩

theorem inner_parts {m : Message} {ms inn : List Entry} (h : innerEntries D cfg m ms = some inn) :
    ∃ es os, m.enums.mapM enumEntry = some es ∧ m.oneofs.mapM (oneofEntry D cfg) = some os ∧
      inn = commonUses D cfg m.messages ++ (if m.messages = [] ∧ m.oneofs = [] then [] else [.supers 1]) ++ ms ++ es ++ os ++ [.text Doc.nl] := by
  unfold innerEntries at h
  obtain ⟨es, he, h⟩ := Option.bind_eq_some_iff.mp h
  obtain ⟨os, ho, rfl⟩ := Option.map_eq_some_iff.mp h
  exact ⟨es, os, he, ho, rfl⟩

/-! ### Glob imports -/

theorem globs_ownEntries {m : Message} {es : List Entry} (h : ownEntries D cfg m = some es) : globs es = [] := by
  unfold ownEntries at h
  obtain ⟨s, _, h⟩ := Option.bind_eq_some_iff.mp h
  obtain ⟨cs, _, h⟩ := Option.bind_eq_some_iff.mp h
  obtain ⟨gs, _, rfl⟩ := Option.map_eq_some_iff.mp h
  unfold implEntries ownedEntries
  simp only [globs_append]
  have h1 : globs (if cs = [] then [] else [Entry.text (implBlock m.name (lifetime D cfg m) (cs.map ConstItem.doc) ++ Doc.nl ++ Doc.nl)]) = [] := by
    split <;> rfl
  have h2 : globs (if gs = [] ∨ cfg.generateGetters = false then [] else
      [Entry.text (implBlock m.name (lifetime D cfg m) (gs.map GetterItem.doc) ++ Doc.nl ++ Doc.nl)]) = [] := by
    split <;> rfl
  have h4 : globs (if cfg.genInfo = true then [Entry.text (infoText m.name (lifetime D cfg m) (m.module ++ '.' :: m.name) ++ Doc.nl)] else []) = [] := by
    split <;> rfl
  rw [h1, h2, h4]
  refine List.append_eq_nil_iff.mpr ⟨List.append_eq_nil_iff.mpr ⟨rfl, ?_⟩, ?_⟩
  · refine List.append_eq_nil_iff.mpr ⟨List.append_eq_nil_iff.mpr ⟨List.append_eq_nil_iff.mpr ⟨rfl, ?_⟩, rfl⟩, rfl⟩
    split <;> rfl
  cases D.owned
  · rfl
  · simp only [if_true]
    split
    · cases cfg.genInfo <;> rfl
    · rfl

theorem globs_messages : ∀ {ms : List Message} {xs : List Entry}, messagesEntries D cfg ms = some xs → globs xs = []
  | [], _, h => by cases h; rfl
  | m :: ms, xs, h => by
    rw [messagesEntries] at h
    obtain ⟨a, ha, h⟩ := Option.bind_eq_some_iff.mp h
    obtain ⟨b, hb, rfl⟩ := Option.map_eq_some_iff.mp h
    rw [globs_append, globs_messages hb, List.append_nil]
    obtain ⟨name, fields, oneofs, nums, names, imported, pkg, messages, enums, module, index⟩ := m
    rw [messageEntries] at ha
    obtain ⟨own, ho, ha⟩ := Option.bind_eq_some_iff.mp ha
    split at ha
    · cases ha; exact globs_ownEntries ho
    · obtain ⟨ms, _, ha⟩ := Option.bind_eq_some_iff.mp ha
      obtain ⟨inn, _, rfl⟩ := Option.map_eq_some_iff.mp ha
      rw [globs_append, globs_ownEntries ho]
      rfl

theorem globs_mapM {α : Type} {t : α → Option Entry} (ht : ∀ a e, t a = some e → ∃ n d, e = .item n d) :
    ∀ {l : List α} {es : List Entry}, l.mapM t = some es → globs es = []
  | [], _, h => by cases h; rfl
  | a :: l, es, h => by
    rw [List.mapM_cons] at h
    obtain ⟨b, hb, h⟩ := Option.bind_eq_some_iff.mp h
    obtain ⟨bs, hbs, h⟩ := Option.bind_eq_some_iff.mp h
    cases h
    obtain ⟨n, d, rfl⟩ := ht a b hb
    show globs bs = []
    exact globs_mapM ht hbs

theorem enumEntry_item {e : Enumerator} {x : Entry} (h : enumEntry e = some x) : ∃ d, x = .item [e.name] d := by
  unfold enumEntry at h
  split at h
  · cases h; exact ⟨_, rfl⟩
  · obtain ⟨_, _, rfl⟩ := Option.map_eq_some_iff.mp h
    exact ⟨_, rfl⟩

theorem oneofEntry_item {o : OneOf} {x : Entry} (h : oneofEntry D cfg o = some x) : ∃ d, x = .item [c! "OneOf" ++ o.name] d := by
  unfold oneofEntry at h
  obtain ⟨_, _, h⟩ := Option.bind_eq_some_iff.mp h
  obtain ⟨_, _, rfl⟩ := Option.map_eq_some_iff.mp h
  exact ⟨_, rfl⟩

theorem globs_uses {ms : List Message} : globs (commonUses D cfg ms) = [] := by
  unfold commonUses
  simp only [globs_append, List.append_eq_nil_iff]
  refine ⟨⟨⟨⟨?_, ?_⟩, ?_⟩, ?_⟩, ?_⟩
  · split <;> rfl
  · split <;> rfl
  · split <;> rfl
  · split <;> rfl
  · split
    · split
      · rfl
      · split <;> rfl
    · rfl

theorem globs_inner {m : Message} {ms inn : List Entry} (hm : messagesEntries D cfg m.messages = some ms) (h : innerEntries D cfg m ms = some inn)
    (hne : m.messages ≠ [] ∨ m.oneofs ≠ []) : globs inn = [1] := by
  obtain ⟨es, os, he, ho, rfl⟩ := inner_parts h
  simp only [globs_append, globs_uses, globs_messages hm, globs_mapM (fun a e h => ⟨_, enumEntry_item h⟩) he,
    globs_mapM (fun a e h => ⟨_, oneofEntry_item h⟩) ho]
  rw [if_neg (by rintro ⟨a, b⟩; rcases hne with h | h; exacts [h a, h b])]
  rfl

theorem globs_crate : globs (crateUses D cfg) = [] := by
  unfold crateUses
  dsimp only
  have hc : globs (if D.owned = true then [Entry.use_ [c! "TryFrom", c! "TryInto"] (ln d!"use core::convert::\{TryFrom, TryInto};")] else []) = [] := by
    split <;> rfl
  split
  · exact hc
  · simp only [globs_append, globs_uses, hc]
    rfl

/-! ### Where messages are -/

theorem descend_inside {es : List Entry} : ∀ {js : List Nat} {ms : List Message} {m : Message} {j : Nat} {t : Message},
    Holds D cfg es t → Clean es → ms[j]? = some t → t.descend js = some m →
    ∃ es', inside es ((namesAlong ms (j :: js)).dropLast.map (c! "mod_" ++ ·)) = some es' ∧ Holds D cfg es' m ∧ Clean es' ∧
      (namesAlong ms (j :: js)).getLast? = some m.name ∧
      ∀ r, r <+: (namesAlong ms (j :: js)).dropLast.map (c! "mod_" ++ ·) → r ≠ [] → ∃ es'', inside es r = some es'' ∧ globs es'' = [1]
  | [], ms, m, j, t, hh, hc, ht, hm => by
    have : t = m := Option.some.inj hm
    subst this
    simp only [namesAlong, ht, List.dropLast_singleton, List.map_nil]
    refine ⟨es, rfl, hh, hc, rfl, ?_⟩
    intro r hr hn
    exact absurd (List.prefix_nil.mp hr) hn
  | k :: js, ms, m, j, t, hh, hc, ht, hm => by
    rw [Message.descend] at hm
    obtain ⟨y, hy, hm⟩ := Option.bind_eq_some_iff.mp hm
    have hne : t.messages ≠ [] := by intro h; rw [h] at hy; cases hy
    obtain ⟨sub, inn, hms, hinn, hmem⟩ := holds_inner hh (Or.inl hne)
    have hfind := find_mod (hc [] es rfl) hmem
    have hin : inside es [c! "mod_" ++ t.name] = some inn := by rw [inside, hfind]; rfl
    obtain ⟨esn, osn, _, _, hparts⟩ := inner_parts hinn
    have hsub : ∀ m ∈ t.messages, Holds D cfg inn m := holds_all hms (by
      intro e he
      rw [hparts]
      simp [he])
    obtain ⟨es', h1, h2, h3, h4, h5⟩ := descend_inside (hsub y (List.mem_of_getElem? hy)) (hc.sub hin) hy hm
    have hnames : namesAlong ms (j :: k :: js) = t.name :: namesAlong t.messages (k :: js) := by rw [namesAlong, ht]
    have hne' : namesAlong t.messages (k :: js) ≠ [] := by rw [namesAlong, hy]; simp
    rw [hnames, List.dropLast_cons_of_ne_nil hne', List.map_cons]
    refine ⟨es', ?_, h2, h3, ?_, ?_⟩
    · rw [inside, hfind]; exact h1
    · rw [List.getLast?_cons_of_ne_nil hne']; exact h4
    · intro r hr hrn
      cases r with
      | nil => exact absurd rfl hrn
      | cons x r =>
        obtain ⟨rfl, hr'⟩ := List.cons_prefix_cons.mp hr
        cases hrr : r with
        | nil =>
          subst hrr
          exact ⟨inn, hin, globs_inner hms hinn (Or.inl hne)⟩
        | cons y r' =>
          obtain ⟨es'', h6, h7⟩ := h5 r hr' (by rw [hrr]; simp)
          rw [← hrr]
          exact ⟨es'', by rw [inside, hfind]; exact h6, h7⟩

theorem mapM_all {α β : Type} {t : α → Option β} : ∀ {l : List α} {bs : List β}, l.mapM t = some bs → ∀ a ∈ l, ∃ b ∈ bs, t a = some b
  | [], _, _, a, ha => by cases ha
  | c :: l, bs, h, a, ha => by
    rw [List.mapM_cons] at h
    obtain ⟨b, hb, h⟩ := Option.bind_eq_some_iff.mp h
    obtain ⟨bs', hbs, h⟩ := Option.bind_eq_some_iff.mp h
    cases h
    cases ha with
    | head => exact ⟨b, List.mem_cons_self, hb⟩
    | tail _ ha =>
      obtain ⟨x, hx, hb⟩ := mapM_all hbs a ha
      exact ⟨x, List.mem_cons_of_mem _ hx, hb⟩

theorem file_parts {filename : Str} {services : Nat} {es : List Entry} (h : fileEntries D cfg filename services = some es) :
    globs es = [(splitDot D.package).length] ∧ (∀ m ∈ D.messages, m.imported = false → Holds D cfg es m) ∧
      ∀ e ∈ D.enums, e.imported = false → ∃ x ∈ es, enumEntry e = some x := by
  unfold fileEntries at h
  obtain ⟨en, he, h⟩ := Option.bind_eq_some_iff.mp h
  obtain ⟨ms, hms, rfl⟩ := Option.map_eq_some_iff.mp h
  refine ⟨?_, fun m hm hi => ?_, fun e hm hi => ?_⟩
  · have h1 : globs (if cfg.headers = true then [Entry.text (headerText cfg filename)] else []) = [] := by split <;> rfl
    have h2 : ∀ n, globs (List.replicate n (Entry.text Doc.nl)) = [] := by
      intro n
      induction n with
      | zero => rfl
      | succ n ih => exact ih
    simp only [globs_append, globs_crate, globs_messages hms, globs_mapM (fun a e h => ⟨_, enumEntry_item h⟩) he, h1, h2]
    rfl
  · exact holds_all hms (fun e he => by simp [he]) m (List.mem_filter.mpr ⟨hm, by rw [hi]; rfl⟩)
  · obtain ⟨x, hx, hxe⟩ := mapM_all he e (List.mem_filter.mpr ⟨hm, by rw [hi]; rfl⟩)
    exact ⟨x, by simp [hx], hxe⟩

variable {filename : Str} {services : Nat} {es : List Entry}

/-- Where the code of a message is. -/
theorem own_inside (h : fileEntries D cfg filename services = some es) (hc : Clean es) {idx : MessageIndex} {m : Message} (ho : Own D idx)
    (hm : D.getMessage idx = some m) : ∃ es', inside es (home D idx) = some es' ∧ Holds D cfg es' m ∧ Clean es' ∧
      inner D idx = home D idx ++ [c! "mod_" ++ m.name] ∧
      ∀ r, r <+: home D idx → r ≠ [] → ∃ es'', inside es r = some es'' ∧ globs es'' = [1] := by
  obtain ⟨i, is, t, rfl, ht, hi⟩ := ho
  rw [FileDescriptor.getMessage, ht] at hm
  obtain ⟨es', h1, h2, h3, h4, h5⟩ := descend_inside ((file_parts h).2.1 t (List.mem_of_getElem? ht) hi) hc ht hm
  refine ⟨es', h1, h2, h3, ?_, h5⟩
  unfold inner home
  obtain ⟨l, hl⟩ := List.getLast?_eq_some_iff.mp h4
  rw [hl]
  simp

/-- Where what is declared in a message is. -/
theorem inner_inside (h : fileEntries D cfg filename services = some es) (hc : Clean es) {idx : MessageIndex} {m : Message} (ho : Own D idx)
    (hm : D.getMessage idx = some m) (hne : m.messages ≠ [] ∨ m.enums ≠ [] ∨ m.oneofs ≠ []) :
    ∃ ms inn, messagesEntries D cfg m.messages = some ms ∧ innerEntries D cfg m ms = some inn ∧ inside es (inner D idx) = some inn ∧ Clean inn := by
  obtain ⟨es', h1, h2, h3, h4, _⟩ := own_inside h hc ho hm
  obtain ⟨ms, inn, hms, hinn, hmem⟩ := holds_inner h2 hne
  have hin : inside es' [c! "mod_" ++ m.name] = some inn := by
    rw [inside, find_mod (h3 [] es' rfl) hmem]; rfl
  refine ⟨ms, inn, hms, hinn, ?_, h3.sub hin⟩
  rw [h4, inside_append, h1]
  exact hin

/-- In all modules in which types are named, and around them, there is `use super::*`. -/
theorem spot_globs (h : fileEntries D cfg filename services = some es) (hc : Clean es) {q : Path} (hq : Spot D q) :
    ∀ r, r <+: q → r ≠ [] → ∃ es', inside es r = some es' ∧ globs es' = [1] := by
  cases hq with
  | message ho hm => exact (own_inside h hc ho hm).choose_spec.2.2.2.2
  | @oneof idx m o ho hm hmem =>
    have hne : m.oneofs ≠ [] := by intro h; rw [h] at hmem; cases hmem
    obtain ⟨es', h1, h2, h3, h4, h5⟩ := own_inside h hc ho hm
    obtain ⟨ms, inn, hms, hinn, hin, _⟩ := inner_inside h hc ho hm (Or.inr (Or.inr hne))
    intro r hr hrn
    rw [h4] at hr
    rcases List.prefix_concat_iff.mp hr with rfl | hr
    · exact ⟨inn, by rw [← h4]; exact hin, globs_inner hms hinn (Or.inr hne)⟩
    · exact h5 r hr hrn

theorem declared_of {crate esd : List Entry} {p : Path} {x : Str} {e : Entry} (hi : inside crate p = some esd) (hn : (names esd).Nodup) (he : e ∈ esd)
    (hx : x ∈ e.declares) : Declared crate p x e :=
  ⟨esd, hi, he, hx, by
    have h1 := List.nodup_iff_count.mp hn x
    have h2 := List.count_pos_iff.mpr (mem_names he hx)
    omega⟩

/-- The first name of the path to something that is declared is declared. -/
theorem first_declared {crate : List Entry} {p rest : Path} {x : Str} {last : Str} {e : Entry} {esd : List Entry} (hp : inside crate p = some esd)
    (h : Declared crate (p ++ (x :: rest).dropLast) last e) (hl : (x :: rest).getLast? = some last) : Finds crate p x p := by
  obtain ⟨es', hi, he, hx, _⟩ := h
  cases rest with
  | nil =>
    simp only [List.dropLast_singleton, List.append_nil] at hi
    simp only [List.getLast?_singleton, Option.some.injEq] at hl
    subst hl
    exact Finds.own hi he hx
  | cons y rest =>
    rw [List.dropLast_cons_of_ne_nil (by simp), inside_append, hp, Option.bind_some, inside] at hi
    obtain ⟨es'', hf, _⟩ := Option.bind_eq_some_iff.mp hi
    exact Finds.own hp (findSome_mod hf) (by simp [Entry.declares])

/-- A path inside the file. -/
theorem denotes_inside {crate : List Entry} {out file : Path} (hin : inside crate (out ++ file) = some es)
    (h : fileEntries D cfg filename services = some es) (hc : Clean es) {q : Path} (hq : Spot D q) {path : Path} {last : Str} {e : Entry}
    (hd : Declared crate (out ++ file ++ path.dropLast) last e) (hl : path.getLast? = some last)
    {leadsOut : Prop} (hu : Unhidden es leadsOut q path) : Denotes crate (out ++ file ++ q) path e := by
  cases path with
  | nil => cases hl
  | cons x rest =>
    refine ⟨out ++ file, ?_, last, hl, hd⟩
    refine finds_up hin (first_declared hin hd hl) q (spot_globs h hc hq) fun r es' hr hn hi => ?_
    exact hu x rfl r es' hr (fun h => absurd h hn) hi

/-- A path that leads out of the file. -/
theorem denotes_outside {crate : List Entry} {out file : Path} (hin : inside crate (out ++ file) = some es)
    (h : fileEntries D cfg filename services = some es) (hlen : file.length = (splitDot D.package).length) (hc : Clean es) {q : Path} (hq : Spot D q)
    {path : Path} {last : Str} {e : Entry} (hd : Declared crate (out ++ path.dropLast) last e) (hl : path.getLast? = some last)
    {leadsOut : Prop} (hlo : leadsOut) (hu : Unhidden es leadsOut q path) : Denotes crate (out ++ file ++ q) path e := by
  cases path with
  | nil => cases hl
  | cons x rest =>
    refine ⟨out, ?_, last, hl, hd⟩
    have hout : ∃ eo, inside crate out = some eo := by
      rw [inside_append] at hin
      obtain ⟨eo, heo, _⟩ := Option.bind_eq_some_iff.mp hin
      exact ⟨eo, heo⟩
    obtain ⟨eo, heo⟩ := hout
    refine finds_up hin ?_ q (spot_globs h hc hq) fun r es' hr hn hi => hu x rfl r es' hr (fun h => absurd h hn) hi
    refine Finds.glob hin (hu x rfl [] es (List.nil_prefix) (fun _ => hlo) rfl) (file_parts h).1 (by rw [List.length_append]; omega) ?_
    have ht : (out ++ file).take ((out ++ file).length - (splitDot D.package).length) = out := by
      rw [List.length_append, ← hlen, Nat.add_sub_cancel]
      exact List.take_left
    rw [ht]
    exact first_declared heo hd hl

/-- A path to something that the file declares: `rel` is the module in the file. -/
theorem denotes_own {base : Path} {crate : List Entry} {out file : Path} (hI : Installed D base crate es out file)
    (h : fileEntries D cfg filename services = some es) (hc : Clean es) {q : Path} (hq : Spot D q) {module : Str} {rel : Path} {last : Str} {e : Entry}
    (hmod : segments module = base ++ rel) {esd : List Entry} (hi : inside es rel = some esd) (he : e ∈ esd) (hx : last ∈ e.declares)
    (hu : Unhidden es (D.package ≠ []) q (modulePath D module false ++ [last])) :
    Denotes crate (out ++ file ++ q) (modulePath D module false ++ [last]) e := by
  have hdecl : Declared crate (out ++ file ++ rel) last e :=
    declared_of (by rw [inside_append, hI.inside]; exact hi) (hc rel esd hi) he hx
  have hp : modulePath D module false = (base ++ rel).drop (if D.package = [] then 1 else 0) := by
    unfold modulePath
    rw [show ((splitDot module).filter fun p => !p.isEmpty) = base ++ rel from hmod]
    cases hpk : D.package <;> rfl
  rw [hp] at hu ⊢
  by_cases hpk : D.package = []
  · obtain ⟨h1, h2⟩ := hI.noPackage hpk
    rw [if_pos hpk] at hu ⊢
    have hd : (base ++ rel).drop 1 = rel := by
      rw [← h1]
      exact List.drop_left
    rw [hd] at hu ⊢
    exact denotes_inside hI.inside h hc hq (by rw [List.dropLast_concat]; exact hdecl) List.getLast?_concat hu
  · obtain ⟨rfl, h2⟩ := hI.package hpk
    rw [if_neg hpk] at hu ⊢
    rw [List.drop_zero] at hu ⊢
    exact denotes_outside hI.inside h h2 hc hq (by rw [List.dropLast_concat, ← List.append_assoc]; exact hdecl) List.getLast?_concat hpk hu

end

end QP.Rust
