import Verif.Spec.Legal
import Verif.Proofs.Located
import Verif.Proofs.Named
import Verif.Proofs.Paths
import Verif.Props.Names
import Verif.Props.Imports
/-!
# Names that Rust accepts: proofs
-/

set_option linter.unusedVariables false

namespace QP.Pbrs
open Parse Grammar

/-! ## What is read -/

def EnumAll (P : Str → Prop) (e : Enumerator) : Prop := ∀ x, EnumName e x → P x

/-- All names in a message, at any depth. -/
inductive MessageAll (P : Str → Prop) : Message → Prop where
  | mk {m : Message} : (∀ x, MessageName m x → P x) → (∀ n ∈ m.messages, MessageAll P n) → MessageAll P m

theorem named_all {m : Message} (h : MessageNamed m) : MessageAll Word m := by
  induction h with
  | @mk m h1 h2 h3 h4 h5 _ ih =>
    refine .mk ?_ ih
    rintro x (rfl | ⟨f, hf, rfl⟩ | ⟨o, ho, rfl | ⟨f, hf, rfl⟩⟩ | ⟨e, he, rfl | ⟨p, hp, rfl⟩⟩)
    · exact h1
    · exact (h2 f hf).name
    · exact (h3 o ho).name
    · exact ((h3 o ho).fields f hf).name
    · exact (h4 e he).name
    · exact ((h4 e he).fields p hp).1

theorem setPackage_name {m : Message} {p q : Str} {x : Str} (h : MessageName (m.setPackage p q) x) : MessageName m x := by
  cases m
  simp only [MessageName, Message.setPackage, List.mem_map] at h ⊢
  rcases h with rfl | ⟨f, hf, rfl⟩ | ⟨o, ⟨o', ho', rfl⟩, h⟩ | ⟨e, ⟨e', he', rfl⟩, h⟩
  · exact Or.inl rfl
  · exact Or.inr (Or.inl ⟨f, hf, rfl⟩)
  · exact Or.inr (Or.inr (Or.inl ⟨o', ho', h⟩))
  · exact Or.inr (Or.inr (Or.inr ⟨e', he', h⟩))

theorem setPackage_all {P : Str → Prop} {m : Message} (h : MessageAll P m) : ∀ p q, MessageAll P (m.setPackage p q) := by
  induction h with
  | @mk m h1 h3 ih =>
    intro p q
    refine .mk (fun x hx => h1 x (setPackage_name hx)) ?_
    intro n hn
    cases m
    simp only [Message.setPackage, setPackageAll_eq] at hn
    obtain ⟨n', hn', rfl⟩ := List.mem_map.mp hn
    exact ih n' hn' _ _

theorem setImported_name {m : Message} {x : Str} (h : MessageName m.setImported x) : MessageName m x := by
  cases m
  simp only [MessageName, Message.setImported, List.mem_map] at h ⊢
  rcases h with rfl | ⟨f, hf, rfl⟩ | ⟨o, ⟨o', ho', rfl⟩, h⟩ | ⟨e, ⟨e', he', rfl⟩, h⟩
  · exact Or.inl rfl
  · exact Or.inr (Or.inl ⟨f, hf, rfl⟩)
  · exact Or.inr (Or.inr (Or.inl ⟨o', ho', h⟩))
  · exact Or.inr (Or.inr (Or.inr ⟨e', he', h⟩))

theorem setImported_all {P : Str → Prop} {m : Message} (h : MessageAll P m) : MessageAll P m.setImported := by
  induction h with
  | @mk m h1 h3 ih =>
    refine .mk (fun x hx => h1 x (setImported_name hx)) ?_
    intro n hn
    cases m
    simp only [Message.setImported, setImportedAll_eq] at hn
    obtain ⟨n', hn', rfl⟩ := List.mem_map.mp hn
    exact ih n' hn'

theorem adopt_all {P : Str → Prop} {m : Message} {p q : Str} (h : MessageAll P m) : MessageAll P (m.adopt p q) := by
  unfold Message.adopt
  split
  · exact setImported_all (setPackage_all h _ _)
  · exact setImported_all h

theorem adopt_enum {P : Str → Prop} {e : Enumerator} {p q : Str} (h : EnumAll P e) : EnumAll P (e.adopt p q) := by
  intro x hx
  refine h x ?_
  unfold Enumerator.adopt at hx
  split at hx <;> exact hx

theorem read_words {fs : Files} {search : List Str} (n : Nat) : ∀ {file : Str} {D : FileDescriptor},
    readProtoFile fs search n file = .ok D → (∀ m ∈ D.messages, MessageAll Word m) ∧ ∀ e ∈ D.enums, EnumAll Word e := by
  induction n with
  | zero => intro file D h; cases h
  | succ n ih =>
    intro file D h
    obtain ⟨D0, imps, hR, hf⟩ := readProtoFile_inv h
    obtain ⟨text, F, r, ht, hF, _, rfl⟩ := reads_parsed hR
    have hN := readProto_named hF
    obtain ⟨_, h1, h2⟩ := fetch_sources hf
    refine ⟨fun m hm => ?_, fun e he => ?_⟩
    · rcases h1 m hm with h | ⟨imp, _, q, f, _, hq, m', hm', rfl⟩
      · simp only [FileDescriptor.setPackages, setPackageAll_eq] at h
        obtain ⟨m', hm', rfl⟩ := List.mem_map.mp h
        exact setPackage_all (named_all (hN.messages m' hm')) _ _
      · exact adopt_all ((ih hq).1 m' hm')
    · rcases h2 e he with h | ⟨imp, _, q, f, _, hq, e', he', rfl⟩
      · simp only [FileDescriptor.setPackages] at h
        obtain ⟨e', he', rfl⟩ := List.mem_map.mp h
        intro x hx
        have := hN.enums e' he'
        rcases hx with rfl | ⟨p, hp, rfl⟩
        · exact this.name
        · exact (this.fields p hp).1
      · exact adopt_enum ((ih hq).2 e' he')

theorem descend_all {P : Str → Prop} {js : List Nat} : ∀ {m x : Message}, MessageAll P m → m.descend js = some x → MessageAll P x := by
  induction js with
  | nil => intro m x h hx; cases hx; exact h
  | cons j js ih =>
    intro m x h hx
    simp only [Message.descend, Option.bind_eq_some_iff] at hx
    obtain ⟨y, hy, hx⟩ := hx
    cases h with
    | mk _ h3 => exact ih (h3 y (List.mem_of_getElem? hy)) hx

/-- All names that are read are words. -/
theorem read_nameIn {fs : Files} {search : List Str} {n : Nat} {file : Str} {D : FileDescriptor} (h : readProtoFile fs search n file = .ok D) {x : Str}
    (hx : NameIn D x) : Word x := by
  obtain ⟨h1, h2⟩ := read_words n h
  rcases hx with ⟨i, m, hm, hx⟩ | ⟨e, he, hx⟩
  · cases i with
    | nil => cases hm
    | cons j js =>
      simp only [FileDescriptor.getMessage, Option.bind_eq_some_iff] at hm
      obtain ⟨y, hy, hm⟩ := hm
      cases descend_all (h1 y (List.mem_of_getElem? hy)) hm with
      | mk h _ => exact h x hx
  · exact h2 e he x hx

/-! ## What is compiled -/

theorem core_name {e e' : Enumerator} (h : e'.core = e.core.sanitizeNames) {x : Str} (hx : EnumName e' x) : ∃ y, EnumName e y ∧ x = sanitizeKeyword y := by
  cases e; cases e'
  simp only [Enumerator.core, Enumerator.sanitizeNames, Enumerator.mk.injEq] at h
  obtain ⟨h1, h2, _⟩ := h
  rcases hx with rfl | ⟨p, hp, rfl⟩
  · exact ⟨_, Or.inl rfl, h1⟩
  · simp only at hp
    rw [h2] at hp
    obtain ⟨p', hp', rfl⟩ := List.mem_map.mp hp
    exact ⟨_, Or.inr ⟨p', hp', rfl⟩, rfl⟩

/-- The names after compiling are the sanitized names before. -/
theorem compile_nameIn {path : FileDescriptor → FieldType → Str} {cfg : Config} {D D' : FileDescriptor} (h : D.compile path cfg = .ok D') {x : Str}
    (hx : NameIn D' x) : ∃ y, NameIn D y ∧ x = sanitizeKeyword y := by
  obtain ⟨hs, he, _⟩ := compile_shells h
  obtain ⟨_, _, _, _, H, _, hV, hF⟩ := compile_fields h
  rcases hx with ⟨i, m', hm', hx⟩ | ⟨e', he', hx⟩
  · obtain ⟨m, hm, hf, ho, ha⟩ := hV.message hm'
    have hsh := hs i
    rw [hm', hm] at hsh
    have hsh : m'.shell = m.shell.sanitizeNames := Option.some.inj hsh
    have up : ∀ {y}, MessageName m y → NameIn D y := fun h => Or.inl ⟨i, m, hm, h⟩
    rcases hx with rfl | ⟨f', hf', rfl⟩ | ⟨o', ho', hx⟩ | ⟨e', he', hx⟩
    · exact ⟨m.name, up (Or.inl rfl), (QP.Rust.shell_facts hsh).1⟩
    · rw [hf] at hf'
      obtain ⟨f, hff, rfl⟩ := List.mem_map.mp hf'
      exact ⟨f.name, up (Or.inr (Or.inl ⟨f, hff, rfl⟩)), (hF i m hm f (List.mem_append_left _ hff)).2.2⟩
    · rcases hx with rfl | ⟨f', hf', rfl⟩
      · have : o'.shell ∈ m'.shell.oneofs := List.mem_map_of_mem ho'
        rw [hsh] at this
        have e2 : (m.shell.sanitizeNames).oneofs = (m.oneofs.map OneOf.shell).map OneOf.sanitizeNames := by cases m; rfl
        rw [e2] at this
        simp only [List.mem_map] at this
        obtain ⟨_, ⟨o, ho, rfl⟩, he⟩ := this
        exact ⟨o.name, up (Or.inr (Or.inr (Or.inl ⟨o, ho, Or.inl rfl⟩))), (congrArg OneOf.name he).symm⟩
      · have : o'.fields ∈ m'.oneofs.map (·.fields) := List.mem_map_of_mem ho'
        rw [ho] at this
        obtain ⟨o, hoo, he⟩ := List.mem_map.mp this
        rw [← he] at hf'
        obtain ⟨f, hff, rfl⟩ := List.mem_map.mp hf'
        exact ⟨f.name, up (Or.inr (Or.inr (Or.inl ⟨o, hoo, Or.inr ⟨f, hff, rfl⟩⟩))),
          (hF i m hm f (List.mem_append_right _ (List.mem_flatMap.mpr ⟨o, hoo, hff⟩))).2.2⟩
    · have : e'.core ∈ m'.shell.enums := List.mem_map_of_mem he'
      rw [hsh] at this
      have e2 : (m.shell.sanitizeNames).enums = (m.enums.map Enumerator.core).map Enumerator.sanitizeNames := by cases m; rfl
      rw [e2] at this
      simp only [List.mem_map] at this
      obtain ⟨_, ⟨e, hee, rfl⟩, hce⟩ := this
      obtain ⟨y, hy, rfl⟩ := core_name hce.symm hx
      exact ⟨y, up (Or.inr (Or.inr (Or.inr ⟨e, hee, hy⟩))), rfl⟩
  · have : e'.core ∈ D'.enums.map Enumerator.core := List.mem_map_of_mem he'
    rw [he] at this
    obtain ⟨e, hee, hce⟩ := List.mem_map.mp this
    obtain ⟨y, hy, rfl⟩ := core_name hce.symm hx
    exact ⟨y, Or.inr ⟨e, hee, hy⟩, rfl⟩

/-! ## Identifiers -/

theorem word_noDot {w : Str} (h : Word w) : '.' ∉ w := by
  obtain ⟨c, cs, rfl, hc, hcs⟩ := h
  intro hm
  rcases List.mem_cons.mp hm with rfl | hm
  · rcases hc with h | h <;> revert h <;> decide
  · rcases hcs _ hm with h | h <;> revert h <;> decide

theorem splitDot_noDot : ∀ {w : Str}, '.' ∉ w → splitDot w = [w]
  | [], _ => rfl
  | c :: cs, h => by
    have h1 : c ≠ '.' := fun e => h (e ▸ List.mem_cons_self ..)
    rw [splitDot, if_neg h1, splitDot_noDot (fun hm => h (List.mem_cons_of_mem _ hm))]

theorem sanitize_word {w : Str} (h : Word w) : sanitizeKeyword w = if w ∈ rustKeywords then w ++ c! "_pb" else w := by
  rw [sanitizeKeyword_eq, splitDot_noDot (word_noDot h)]
  simp only [List.map_cons, List.map_nil, joinDot, sanitizeSegment]
  by_cases hk : w ∈ rustKeywords
  · rw [if_pos hk, if_pos (by simpa using hk)]; rfl
  · rw [if_neg hk, if_neg (by simpa using hk)]

theorem Word.more {w t : Str} (h : Word w) (ht : ∀ d ∈ t, WordChar d) : Word (w ++ t) := by
  obtain ⟨c, cs, rfl, hc, hcs⟩ := h
  exact ⟨c, cs ++ t, rfl, hc, fun d hd => (List.mem_append.mp hd).elim (hcs d) (ht d)⟩

theorem Word.chars {w : Str} (h : Word w) : ∀ d ∈ w, WordChar d := by
  obtain ⟨c, cs, rfl, hc, hcs⟩ := h
  intro d hd
  rcases List.mem_cons.mp hd with rfl | hd
  · rcases hc with h | h
    · exact Or.inl (by rw [Char.isAlphanum, h]; rfl)
    · exact Or.inr h
  · exact hcs d hd

theorem Word.before {w t : Str} (h : Word w) (ht : Word t) : Word (t ++ w) := Word.more ht (Word.chars h)

/-- A word with a piece that no keyword has. -/
theorem legal_of {w : Str} (h : Word w) (hn : w ≠ c! "_") (hk : ∀ k ∈ strictKeywords ++ newKeywords ++ reservedKeywords, w ≠ k) : RustIdent w := by
  refine ⟨h, hn, ?_, ?_, ?_⟩ <;> intro hm <;> refine hk w ?_ rfl <;> simp [hm]

theorem legal_word {w : Str} (h : Word w) (hu : Usual w) : RustIdent (sanitizeKeyword w) := by
  rw [sanitize_word h]
  split
  · next hk =>
    refine legal_of (Word.more h (by unfold WordChar; decide)) ?_ ?_
    · intro he
      have := congrArg List.length he
      obtain ⟨c, cs, rfl, _⟩ := h
      simp at this
    · have : ∀ w ∈ rustKeywords, ∀ k ∈ strictKeywords ++ newKeywords ++ reservedKeywords, w ++ c! "_pb" ≠ k := by decide +kernel
      exact this w hk
  · next hk =>
    refine legal_of h hu.1 fun k hm he => ?_
    subst he
    have h1 : ∀ k ∈ strictKeywords, k ∈ rustKeywords := by decide +kernel
    have h3 : ∀ k ∈ reservedKeywords, k = c! "macro" ∨ k ∈ rustKeywords := by decide +kernel
    simp only [List.mem_append] at hm
    rcases hm with (hm | hm) | hm
    · exact hk (h1 w hm)
    · exact hu.2.1 hm
    · exact (h3 w hm).elim hu.2.2 hk

theorem ident_prefix {p w : Str} (hp : Word p) (hl : 1 < p.length) (hk : ∀ k ∈ strictKeywords ++ newKeywords ++ reservedKeywords, ¬ p <+: k) (hw : RustIdent w) :
    RustIdent (p ++ w) := by
  refine legal_of (Word.before hw.chars hp) ?_ ?_
  · intro he
    have := congrArg List.length he
    simp at this
    omega
  · intro k hm he
    exact hk k hm ⟨w, he⟩

theorem ident_suffix {p w : Str} (hp : ∀ d ∈ p, WordChar d) (hl : 0 < p.length) (hk : ∀ k ∈ strictKeywords ++ newKeywords ++ reservedKeywords, ¬ p <:+ k) (hw : RustIdent w) :
    RustIdent (w ++ p) := by
  refine legal_of (Word.more hw.chars hp) ?_ ?_
  · intro he
    have := congrArg List.length he
    obtain ⟨c, cs, rfl, _⟩ := hw.chars
    simp only [List.length_append, List.length_cons, List.length_nil] at this
    omega
  · intro k hm he
    exact hk k hm ⟨w, he⟩

end QP.Pbrs

namespace QP.Rust
open QP.Pbrs Grammar

/-! ## What is declared in the file -/

variable {D : FileDescriptor} {cfg : Config}

theorem within_append {e : Entry} {xs ys : List Entry} (h : Within e (xs ++ ys)) : Within e xs ∨ Within e ys := by
  cases h with
  | here h => exact (List.mem_append.mp h).imp .here .here
  | deep h h' => exact (List.mem_append.mp h).imp (.deep · h') (.deep · h')

theorem within_flat {e : Entry} {xs : List Entry} (hx : ∀ x es, Entry.mod_ x es ∉ xs) (h : Within e xs) : e ∈ xs := by
  cases h with
  | here h => exact h
  | deep h _ => exact (hx _ _ h).elim

/-- What a file that declares the names of `D` may declare. -/
inductive Made (D : FileDescriptor) : Str → Prop where
  | name {x : Str} : NameIn D x → Made D x
  | module {x : Str} : NameIn D x → Made D (c! "mod_" ++ x)
  | oneof {x : Str} : NameIn D x → Made D (c! "OneOf" ++ x)
  | inner {x : Str} : NameIn D x → Made D (x ++ c! "OwnedInner")
  | owned {x : Str} : NameIn D x → Made D (x ++ c! "Owned")
  | map : Made D (c! "KVMap")

def AllMade (D : FileDescriptor) (es : List Entry) : Prop := ∀ e, Within e es → ∀ x ∈ e.declares, Made D x

theorem AllMade.nil : AllMade D [] := by
  intro e h
  cases h with
  | here h => cases h
  | deep h _ => cases h

theorem AllMade.append {xs ys : List Entry} (hx : AllMade D xs) (hy : AllMade D ys) : AllMade D (xs ++ ys) :=
  fun e h => (within_append h).elim (hx e) (hy e)

theorem AllMade.flat {xs : List Entry} (h : ∀ e ∈ xs, (∀ x es, e ≠ .mod_ x es) ∧ ∀ x ∈ e.declares, Made D x) : AllMade D xs := by
  intro e he
  exact (h e (within_flat (fun x es hm => (h _ hm).1 x es rfl) he)).2

theorem AllMade.cons {e : Entry} {xs : List Entry} (he : AllMade D [e]) (hx : AllMade D xs) : AllMade D (e :: xs) := AllMade.append (xs := [e]) he hx

theorem AllMade.text {d : Doc} : AllMade D [.text d] := AllMade.flat (by
  intro e he
  rw [List.mem_singleton.mp he]
  exact ⟨fun _ _ h => (by cases h), fun x (hx : x ∈ []) => (by cases hx)⟩)

theorem AllMade.item {ns : List Str} {d : Doc} (h : ∀ x ∈ ns, Made D x) : AllMade D [.item ns d] := AllMade.flat (by
  intro e he
  rw [List.mem_singleton.mp he]
  exact ⟨fun _ _ h => (by cases h), h⟩)

theorem AllMade.use {ns : List Str} {d : Doc} : AllMade D [.use_ ns d] := AllMade.flat (by
  intro e he
  rw [List.mem_singleton.mp he]
  exact ⟨fun _ _ h => (by cases h), fun x (hx : x ∈ []) => (by cases hx)⟩)

theorem AllMade.supers {n : Nat} : AllMade D [.supers n] := AllMade.flat (by
  intro e he
  rw [List.mem_singleton.mp he]
  exact ⟨fun _ _ h => (by cases h), fun x (hx : x ∈ []) => (by cases hx)⟩)

theorem AllMade.mod {x : Str} {es : List Entry} (hx : Made D x) (h : AllMade D es) : AllMade D [.mod_ x es] := by
  intro e he y hy
  cases he with
  | here hm =>
    rw [List.mem_singleton.mp hm] at hy
    rw [List.mem_singleton.mp hy]
    exact hx
  | deep hm hw =>
    cases List.mem_singleton.mp hm
    exact h e hw y hy

theorem AllMade.ite {c : Prop} [Decidable c] {xs ys : List Entry} (hx : AllMade D xs) (hy : AllMade D ys) : AllMade D (if c then xs else ys) := by
  split
  · exact hx
  · exact hy

theorem made_commonUses (ms : List Message) : AllMade D (commonUses D cfg ms) := by
  unfold commonUses
  have hm {d1 d2 : Doc} {n : List Str} : AllMade D [.use_ n d1, .item [c! "KVMap"] d2] :=
    AllMade.cons AllMade.use (AllMade.item (by intro x hx; rw [List.mem_singleton.mp hx]; exact .map))
  refine AllMade.append (AllMade.append (AllMade.append (AllMade.append ?_ ?_) ?_) ?_) ?_
  · exact AllMade.ite AllMade.use AllMade.nil
  · exact AllMade.ite AllMade.use AllMade.nil
  · exact AllMade.ite AllMade.use AllMade.nil
  · exact AllMade.ite AllMade.use AllMade.nil
  · exact AllMade.ite (AllMade.ite hm (AllMade.ite hm hm)) AllMade.nil

theorem made_own {m : Message} (hm : NameIn D m.name) {own : List Entry} (h : ownEntries D cfg m = some own) : AllMade D own := by
  unfold ownEntries at h
  obtain ⟨s, _, h⟩ := Option.bind_eq_some_iff.mp h
  obtain ⟨cs, _, h⟩ := Option.bind_eq_some_iff.mp h
  obtain ⟨gs, _, rfl⟩ := Option.map_eq_some_iff.mp h
  refine AllMade.append (AllMade.append (AllMade.cons AllMade.text (AllMade.cons ?_ AllMade.text)) ?_) ?_
  · exact AllMade.item (by intro x hx; rw [List.mem_singleton.mp hx]; exact .name hm)
  · unfold implEntries
    refine AllMade.append (AllMade.append (AllMade.append (AllMade.append ?_ ?_) ?_) (AllMade.cons AllMade.text (AllMade.cons AllMade.text AllMade.text))) ?_
    · exact AllMade.ite AllMade.nil AllMade.text
    · exact AllMade.ite AllMade.nil AllMade.text
    · cases s.default with
      | none => exact AllMade.nil
      | some es => exact AllMade.text
    · exact AllMade.ite AllMade.text AllMade.nil
  · unfold ownedEntries
    refine AllMade.ite (AllMade.ite (AllMade.append (AllMade.item ?_) (AllMade.ite AllMade.text AllMade.nil)) AllMade.text) AllMade.nil
    intro x hx
    simp only [List.mem_cons, List.not_mem_nil, or_false] at hx
    rcases hx with rfl | rfl
    · exact .inner hm
    · exact .owned hm

theorem made_mapM {α : Type} {f : α → Option Entry} : ∀ {l : List α} {es : List Entry}, (∀ a ∈ l, ∀ e, f a = some e → AllMade D [e]) → l.mapM f = some es → AllMade D es
  | [], es, _, h => by cases h; exact AllMade.nil
  | a :: l, es, hf, h => by
    rw [List.mapM_cons] at h
    obtain ⟨b, hb, h⟩ := Option.bind_eq_some_iff.mp h
    obtain ⟨bs, hbs, h⟩ := Option.bind_eq_some_iff.mp h
    cases h
    exact AllMade.cons (hf a (List.mem_cons_self ..) b hb) (made_mapM (fun a ha => hf a (List.mem_cons_of_mem _ ha)) hbs)

theorem made_enum {e : Enumerator} (he : NameIn D e.name) {x : Entry} (h : enumEntry e = some x) : AllMade D [x] := by
  have hm : ∀ y ∈ [e.name], Made D y := by intro y hy; rw [List.mem_singleton.mp hy]; exact .name he
  unfold enumEntry at h
  split at h
  · cases h
    exact AllMade.item hm
  · obtain ⟨first, _, rfl⟩ := Option.map_eq_some_iff.mp h
    exact AllMade.item hm

theorem made_oneof {o : OneOf} (ho : NameIn D o.name) {x : Entry} (h : oneofEntry D cfg o = some x) : AllMade D [x] := by
  unfold oneofEntry at h
  obtain ⟨l, _, h⟩ := Option.bind_eq_some_iff.mp h
  obtain ⟨vs, _, rfl⟩ := Option.map_eq_some_iff.mp h
  exact AllMade.item (by intro y hy; rw [List.mem_singleton.mp hy]; exact .oneof ho)

/-- A message and all messages in it are messages of `D`, as far as names go. -/
inductive Known (D : FileDescriptor) : Message → Prop where
  | mk {m : Message} : (∀ x, MessageName m x → NameIn D x) → (∀ n ∈ m.messages, Known D n) → Known D m

mutual
theorem made_message : ∀ (m : Message), Known D m → ∀ {es}, messageEntries D cfg m = some es → AllMade D es
  | ⟨name, fields, oneofs, nums, names, imported, pkg, messages, enums, module, index⟩, hk, es, h => by
    rw [messageEntries] at h
    cases hk with
    | mk hn hs =>
    obtain ⟨own, hown, h⟩ := Option.bind_eq_some_iff.mp h
    have h1 := made_own (hn _ (Or.inl rfl)) hown
    split at h
    · cases h; exact h1
    · obtain ⟨ms, hms, h⟩ := Option.bind_eq_some_iff.mp h
      obtain ⟨inn, hinn, rfl⟩ := Option.map_eq_some_iff.mp h
      have h2 := made_messages messages (fun n hm => hs n hm) hms
      refine AllMade.append h1 (AllMade.cons AllMade.text (AllMade.mod (.module (hn _ (Or.inl rfl))) ?_))
      obtain ⟨xs, ys, hxs, hys, rfl⟩ := inner_parts hinn
      refine AllMade.append (AllMade.append (AllMade.append (AllMade.append (AllMade.append (made_commonUses _) ?_) h2) ?_) ?_) AllMade.text
      · exact AllMade.ite AllMade.nil AllMade.supers
      · exact made_mapM (fun e he x hx => made_enum (hn _ (Or.inr (Or.inr (Or.inr ⟨e, he, Or.inl rfl⟩)))) hx) hxs
      · exact made_mapM (fun o ho x hx => made_oneof (hn _ (Or.inr (Or.inr (Or.inl ⟨o, ho, Or.inl rfl⟩)))) hx) hys
theorem made_messages : ∀ (ms : List Message), (∀ m ∈ ms, Known D m) → ∀ {es}, messagesEntries D cfg ms = some es → AllMade D es
  | [], _, es, h => by rw [messagesEntries] at h; cases h; exact AllMade.nil
  | m :: ms, hk, es, h => by
    rw [messagesEntries] at h
    obtain ⟨a, ha, h⟩ := Option.bind_eq_some_iff.mp h
    obtain ⟨b, hb, rfl⟩ := Option.map_eq_some_iff.mp h
    exact AllMade.append (made_message m (hk m (List.mem_cons_self ..)) ha) (made_messages ms (fun n hn => hk n (List.mem_cons_of_mem _ hn)) hb)
end

theorem known_of : ∀ (m : Message) (i : MessageIndex), D.getMessage i = some m → Known D m
  | ⟨name, fields, oneofs, nums, names, imported, pkg, messages, enums, module, index⟩, i, h =>
    .mk (fun x hx => Or.inl ⟨i, _, h, hx⟩) fun n hn => by
      obtain ⟨k, hk⟩ := List.getElem?_of_mem hn
      exact known_of n (i ++ [k]) (by rw [QP.Pbrs.getMessage_append h]; simp only [Message.descend, hk]; rfl)

theorem made_replicate {d : Doc} : ∀ n : Nat, AllMade D (List.replicate n (.text d))
  | 0 => AllMade.nil
  | n + 1 => AllMade.cons AllMade.text (made_replicate n)

theorem made_file {filename : Str} {services : Nat} {es : List Entry} (h : fileEntries D cfg filename services = some es) : AllMade D es := by
  unfold fileEntries at h
  obtain ⟨en, he, h⟩ := Option.bind_eq_some_iff.mp h
  obtain ⟨ms, hms, rfl⟩ := Option.map_eq_some_iff.mp h
  refine AllMade.append (AllMade.append (AllMade.append (AllMade.append (AllMade.append (AllMade.append (AllMade.append ?_ AllMade.text) ?_) AllMade.supers) ?_) ?_) ?_) AllMade.text
  · exact AllMade.ite AllMade.text AllMade.nil
  · unfold crateUses
    refine AllMade.ite (AllMade.cons AllMade.use (AllMade.ite AllMade.use AllMade.nil)) ?_
    exact AllMade.append (AllMade.append (AllMade.append (made_commonUses _) AllMade.use) (AllMade.ite AllMade.use AllMade.nil)) AllMade.text
  · exact made_mapM (fun e he x hx => made_enum (Or.inr ⟨e, (List.mem_filter.mp he).1, Or.inl rfl⟩) hx) he
  · refine made_messages _ (fun m hm => ?_) hms
    obtain ⟨k, hk⟩ := List.getElem?_of_mem (List.mem_filter.mp hm).1
    exact known_of m [k] (by simp only [FileDescriptor.getMessage, hk]; rfl)
  · exact made_replicate services

theorem made_legal (h : ∀ x, NameIn D x → RustIdent x) {x : Str} (hx : Made D x) : RustIdent x := by
  cases hx with
  | name hx => exact h _ hx
  | module hx => exact ident_prefix ⟨_, _, rfl, Or.inl (by decide), by unfold WordChar; decide⟩ (by decide) (by decide +kernel) (h _ hx)
  | oneof hx => exact ident_prefix ⟨_, _, rfl, Or.inl (by decide), by unfold WordChar; decide⟩ (by decide) (by decide +kernel) (h _ hx)
  | inner hx => exact ident_suffix (by unfold WordChar; decide) (by decide) (by decide +kernel) (h _ hx)
  | owned hx => exact ident_suffix (by unfold WordChar; decide) (by decide) (by decide +kernel) (h _ hx)
  | map => exact legal_of ⟨_, _, rfl, Or.inl (by decide), by unfold WordChar; decide⟩ (by decide) (by decide +kernel)

end QP.Rust
