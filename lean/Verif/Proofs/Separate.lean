import Verif.Spec.Separate
import Verif.Props.Lifetimes
/-!
# Files that are generated one by one: proofs
-/

set_option linter.unusedVariables false

namespace QP.Pbrs

/-! ## All imported files are there -/

theorem star_first {fs : Files} {search : List Str} {p r : Str} (h : ImportsStar fs search p r) : r = p ∨ ∃ s, Imports fs search p s ∧ ImportsStar fs search s r := by
  induction h with
  | refl => exact Or.inl rfl
  | @step q r h1 h2 ih =>
    rcases ih with rfl | ⟨s, hs, hr⟩
    · exact Or.inr ⟨r, h2, .refl r⟩
    · exact Or.inr ⟨s, hs, .step hr h2⟩

theorem star_trans {fs : Files} {search : List Str} {p q r : Str} (h : ImportsStar fs search p q) (h' : ImportsStar fs search q r) : ImportsStar fs search p r := by
  induction h' with
  | refl => exact h
  | step _ h2 ih => exact .step ih h2

/-- What is adopted keeps everything but the mark. -/
theorem adopted {fs : Files} {search : List Str} {n : Nat} {q : Str} {D : FileDescriptor} (hp : AllPackaged fs search q) (h : readProtoFile fs search n q = .ok D) :
    (∀ m ∈ D.messages, m.adopt D.package D.module = m.setImported) ∧ ∀ e ∈ D.enums, e.adopt D.package D.module = { e with imported := true } := by
  obtain ⟨D0, imps, hr, e1, e2, hm, he⟩ := sources n hp h
  refine ⟨fun m hmm => ?_, fun e hee => ?_⟩
  · rcases hm m hmm with hm0 | ⟨hne, _⟩
    · obtain ⟨m'', rfl⟩ := (reads_packaged hr).1 m hm0
      rw [e1, e2, adopt_own]
    · exact adopt_packaged hne _ _
  · rcases he e hee with he0 | ⟨hne, _⟩
    · obtain ⟨m'', rfl⟩ := (reads_packaged hr).2 e he0
      rw [e1, e2, enum_adopt_own]
    · exact enum_adopt_packaged hne _ _

/-- Whatever an imported file declares is in the result. -/
theorem complete {fs : Files} {search : List Str} (n : Nat) : ∀ {q : Str} {D : FileDescriptor}, (∀ s, Imports fs search q s → AllPackaged fs search s) →
    readProtoFile fs search n q = .ok D → ∀ r E is, ImportsStar fs search q r → Reads fs r E is →
      (∀ m ∈ E.messages, ∃ m' ∈ D.messages, m'.setImported = m.setImported) ∧
      ∀ e ∈ E.enums, ∃ e' ∈ D.enums, ({ e' with imported := true } : Enumerator) = { e with imported := true } := by
  induction n with
  | zero => intro q D _ h; cases h
  | succ n ih =>
    intro q D hp h r E is hs hE
    obtain ⟨D0, imps, hr, hf⟩ := readProtoFile_inv h
    obtain ⟨h1, h2, h3⟩ := fetch_complete hf
    rcases star_first hs with rfl | ⟨s, hi, hs⟩
    · obtain ⟨rfl, rfl⟩ := reads_unique hr hE
      exact ⟨fun m hm => ⟨m, h1 m hm, rfl⟩, fun e he => ⟨e, h2 e he, rfl⟩⟩
    · obtain ⟨D1, imps1, imp, hR, him, hmean⟩ := hi
      obtain ⟨rfl, rfl⟩ := reads_unique hr hR
      have hi : Imports fs search q s := ⟨D0, imps, imp, hr, him, hmean⟩
      obtain ⟨s', f, hfi, hrd, k1, k2⟩ := h3 imp him
      cases (findImport_iff.mpr hmean).symm.trans hfi
      have hps := hp s hi
      obtain ⟨a1, a2⟩ := adopted hps hrd
      obtain ⟨b1, b2⟩ := ih (fun s' hi' p r hs' hi'' => hps p r (ImportsStar.head hi' hs') hi'') hrd r E is hs hE
      refine ⟨fun m hm => ?_, fun e he => ?_⟩
      · obtain ⟨m', hm', he⟩ := b1 m hm
        have := k1 m' hm'
        rw [a1 m' hm'] at this
        exact ⟨_, this, by rw [setImported_idem, he]⟩
      · obtain ⟨m', hm', he⟩ := b2 e he
        have := k2 m' hm'
        rw [a2 m' hm'] at this
        exact ⟨_, this, he⟩

/-! ## The same message -/

theorem descend_same {m m' : Message} (h : m.setImported = m'.setImported) {js : List Nat} {x : Message} (hx : m.descend js = some x) :
    ∃ x', m'.descend js = some x' ∧ x.setImported = x'.setImported := by
  induction js generalizing m m' with
  | nil => cases hx; exact ⟨m', rfl, h⟩
  | cons k ks ih =>
    simp only [Message.descend, Option.bind_eq_some_iff] at hx ⊢
    obtain ⟨y, hy, hx⟩ := hx
    have hl : m.messages.map Message.setImported = m'.messages.map Message.setImported := by
      have := congrArg Message.messages h
      cases m; cases m'
      simpa only [Message.setImported, setImportedAll_eq] using this
    have := congrArg (·[k]?) hl
    simp only [List.getElem?_map, hy, Option.map_some] at this
    obtain ⟨y', hy', he⟩ := Option.map_eq_some_iff.mp this.symm
    obtain ⟨x', hx', hh⟩ := ih he.symm hx
    exact ⟨x', ⟨y', hy', hx'⟩, hh⟩

theorem same_facts {m m' : Message} (h : m.setImported = m'.setImported) : m.name = m'.name ∧ m.package = m'.package ∧ m.fields = m'.fields ∧
    m.oneofs.map (·.fields) = m'.oneofs.map (·.fields) ∧ m.enums.map (fun e => (e.package, e.name)) = m'.enums.map (fun e => (e.package, e.name)) := by
  cases m; cases m'
  simp only [Message.setImported, Message.mk.injEq] at h
  obtain ⟨h1, h2, h3, _, _, _, h7, _, h9, _⟩ := h
  refine ⟨h1, h7, h2, ?_, ?_⟩
  · have := congrArg (List.map (·.fields)) h3
    simpa [Function.comp_def] using this
  · have := congrArg (List.map (fun e : Enumerator => (e.package, e.name))) h9
    simpa [Function.comp_def] using this

theorem same_allFields {m m' : Message} (h : m.setImported = m'.setImported) : m.allFields = m'.allFields := by
  obtain ⟨_, _, h3, h4, _⟩ := same_facts h
  unfold Message.allFields
  rw [h3]
  have : m.oneofs.flatMap (·.fields) = m'.oneofs.flatMap (·.fields) := by rw [List.flatMap_def, h4, List.flatMap_def]
  simpa using this

theorem same_candidates {m m' : Message} (h : m.setImported = m'.setImported) (n : Str) : candidates m n = candidates m' n := by
  obtain ⟨h1, h2, _⟩ := same_facts h
  unfold candidates scopes scopePath
  rw [h1, h2]

theorem same_fullName {m m' : Message} (h : m.setImported = m'.setImported) : m.fullName = m'.fullName := by
  obtain ⟨h1, h2, _⟩ := same_facts h
  unfold Message.fullName
  rw [h1, h2]

theorem Twin.symm {D D' : FileDescriptor} {i i' : MessageIndex} (h : Twin D D' i i') : Twin D' D i' i := by
  obtain ⟨h1, x, x', h2, h3, h4⟩ := h
  exact ⟨h1.symm, x', x, h3, h2, h4.symm⟩

theorem Twin.trans {D D' D'' : FileDescriptor} {i i' i'' : MessageIndex} (h : Twin D D' i i') (h' : Twin D' D'' i' i'') : Twin D D'' i i'' := by
  obtain ⟨h1, x, x', h2, h3, h4⟩ := h
  obtain ⟨k1, y, y', k2, k3, k4⟩ := h'
  cases h3.symm.trans k2
  exact ⟨h1.trans k1, x, y', h2, k3, h4.trans k4⟩

theorem TwinType.trans {D D' D'' : FileDescriptor} {t t' t'' : FieldType} (h : TwinType D D' t t') (h' : TwinType D' D'' t' t'') : TwinType D D'' t t'' := by
  cases t <;> cases t' <;> try exact h.elim
  all_goals cases t'' <;> try exact h'.elim
  · trivial
  · exact Twin.trans h h'

/-- Everything that `D'` declares is in `D`. -/
structure Covers (D D' : FileDescriptor) : Prop where
  messages : ∀ m ∈ D'.messages, ∃ m' ∈ D.messages, m'.setImported = m.setImported
  enums : ∀ e ∈ D'.enums, ∃ e' ∈ D.enums, ({ e' with imported := true } : Enumerator) = { e with imported := true }

theorem Covers.get {D D' : FileDescriptor} (h : Covers D D') {i : MessageIndex} {x : Message} (hx : D'.getMessage i = some x) : ∃ k, Twin D D' k i := by
  cases i with
  | nil => cases hx
  | cons j js =>
    have hx0 := hx
    simp only [FileDescriptor.getMessage, Option.bind_eq_some_iff] at hx
    obtain ⟨t, ht, hx⟩ := hx
    obtain ⟨t', ht', he⟩ := h.messages t (List.mem_of_getElem? ht)
    obtain ⟨k, hk⟩ := List.getElem?_of_mem ht'
    obtain ⟨x', hx', hh⟩ := descend_same he.symm hx
    exact ⟨k :: js, rfl, x', x, by simp only [FileDescriptor.getMessage, hk]; exact hx', hx0, hh.symm⟩

theorem Covers.declares {D D' : FileDescriptor} (h : Covers D D') {n : Str} {t : FieldType} (ht : Declares D' n t) : ∃ t', Declares D n t' ∧ TwinType D D' t' t := by
  cases ht with
  | message i m hm hn =>
    obtain ⟨k, hs⟩ := h.get hm
    obtain ⟨h1, x, x', h2, h3, h4⟩ := hs
    cases hm.symm.trans h3
    exact ⟨.message k, .message k x h2 (by rw [same_fullName h4, hn]), h1, x, _, h2, h3, h4⟩
  | nested i m k e hm he hn =>
    obtain ⟨i', h1, x, x', h2, h3, h4⟩ := h.get hm
    cases hm.symm.trans h3
    have := congrArg (·[k]?) (same_facts h4).2.2.2.2
    simp only [List.getElem?_map, he, Option.map_some] at this
    obtain ⟨e', he', hh⟩ := Option.map_eq_some_iff.mp this
    have p1 : e'.package = e.package := congrArg Prod.fst hh
    have p2 : e'.name = e.name := congrArg Prod.snd hh
    refine ⟨.enum ⟨i', k⟩, .nested i' x k e' h2 he' ?_, trivial⟩
    rw [← hn]
    unfold Enumerator.nestedName
    rw [p1, p2]
  | top k e he hn =>
    obtain ⟨e', he', hh⟩ := h.enums e (List.mem_of_getElem? he)
    obtain ⟨k', hk'⟩ := List.getElem?_of_mem he'
    refine ⟨.enum ⟨[], k'⟩, .top k' e' hk' ?_, trivial⟩
    have h1 := congrArg Enumerator.package hh
    have h2 := congrArg Enumerator.name hh
    have h1 : e'.package = e.package := h1
    have h2 : e'.name = e.name := h2
    rw [← hn]
    unfold Enumerator.fullName
    rw [h1, h2]

/-! ## The same type -/

theorem means_same {D D' : FileDescriptor} (hC : Covers D D') (hU : OneMeaning D) {m m' : Message} (hs : m.setImported = m'.setImported) {n : Str}
    (hcap : ∀ c ∈ candidates m' n, ∀ t, Declares D c t → ∃ t', Declares D' c t') {t t' : FieldType} (h : Means D m n t) (h' : Means D' m' n t') : TwinType D D' t t' := by
  obtain ⟨a, c, b, e, hd, hi⟩ := h
  obtain ⟨a', c', b', e', hd', hi'⟩ := h'
  rw [same_candidates hs] at e
  obtain ⟨t2, hd2, hs2⟩ := hC.declares hd'
  have hcc : c = c' := by
    have heq : a ++ c :: b = a' ++ c' :: b' := e.symm.trans e'
    rcases List.append_eq_append_iff.mp heq with ⟨l, h1, h2⟩ | ⟨l, h1, h2⟩
    · cases l with
      | nil => exact (List.cons.inj h2).1
      | cons x l =>
        obtain ⟨rfl, _⟩ := List.cons.inj h2
        obtain ⟨t3, h3⟩ := hcap c (by rw [e]; simp) t hd
        exact (hi' c (by rw [h1]; simp) t3 h3).elim
    · cases l with
      | nil => exact (List.cons.inj h2).1.symm
      | cons x l =>
        obtain ⟨rfl, _⟩ := List.cons.inj h2
        exact (hi c' (by rw [h1]; simp) t2 hd2).elim
  subst hcc
  exact TwinType.trans (hU c t t2 hd hd2) hs2

/-- The types of a field in two compiled descriptors. -/
inductive Alike (S : MessageIndex → MessageIndex → Prop) : FieldType → FieldType → Prop
  | message {i i'} : S i i' → Alike S (.message i) (.message i')
  | enum {i i'} : Alike S (.enum i) (.enum i')
  | same {t} : (∀ i, t ≠ .message i) → (∀ k v, t ≠ .map k v) → Alike S t t
  | map {k k' v v'} : Alike S k k' → Alike S v v' → Alike S (.map k v) (.map k' v')

theorem Alike.symm {S : MessageIndex → MessageIndex → Prop} {t t' : FieldType} (h : Alike S t t') : Alike (fun a b => S b a) t' t := by
  induction h with
  | message h => exact .message h
  | enum => exact .enum
  | same h1 h2 => exact .same h1 h2
  | map _ _ h1 h2 => exact .map h1 h2

theorem Alike.cow {S : MessageIndex → MessageIndex → Prop} {t t' : FieldType} (h : Alike S t t') (hc : CowType t) : CowType t' := by
  induction h with
  | message h => cases hc
  | enum => cases hc
  | same => exact hc
  | @map k k' v v' _ _ h1 h2 =>
    cases hc with
    | key _ h => exact .key _ (h1 h)
    | value _ h => exact .value _ (h2 h)

theorem Alike.mess {S : MessageIndex → MessageIndex → Prop} {t t' : FieldType} (h : Alike S t t') {j : MessageIndex} (hj : MessageType j t) :
    ∃ j', MessageType j' t' ∧ S j j' := by
  induction h with
  | message h => cases hj; exact ⟨_, .message, h⟩
  | enum => cases hj
  | same h1 h2 =>
    cases hj with
    | message => exact (h1 _ rfl).elim
    | key _ h => exact (h2 _ _ rfl).elim
    | value _ h => exact (h2 _ _ rfl).elim
  | @map k k' v v' _ _ h1 h2 =>
    cases hj with
    | key _ h => obtain ⟨j', a, b⟩ := h1 h; exact ⟨j', .key _ a, b⟩
    | value _ h => obtain ⟨j', a, b⟩ := h2 h; exact ⟨j', .value _ a, b⟩

theorem Alike.fixed {S : MessageIndex → MessageIndex → Prop} {t t' : FieldType} (h : Alike S t t') (hf : t.isFixedSize = true) : t' = t := by
  cases h with
  | message h => cases hf
  | enum => cases hf
  | same => rfl
  | map => cases hf

/-- Two descriptors that correspond. -/
def Corresponds (cfg : Config) (S : MessageIndex → MessageIndex → Prop) (E E' : FileDescriptor) : Prop :=
  ∀ i i', S i i' → ∀ m, E.getMessage i = some m → ∃ m', E'.getMessage i' = some m' ∧ ∀ f ∈ m.allFields, ∃ f' ∈ m'.allFields,
    (Generated cfg f → Generated cfg f') ∧ Alike S f.typ f'.typ ∧ (BorrowsItself f → BorrowsItself f')

theorem Corresponds.borrows {cfg : Config} {S : MessageIndex → MessageIndex → Prop} {E E' : FileDescriptor} (h : Corresponds cfg S E E') {i i' : MessageIndex}
    (hs : S i i') (hb : Borrows E cfg i) : Borrows E' cfg i' := by
  induction hb generalizing i' with
  | itself hm hf hg hb =>
    obtain ⟨m', hm', hh⟩ := h _ _ hs _ hm
    obtain ⟨f', hf', h1, _, h3⟩ := hh _ hf
    exact .itself hm' hf' (h1 hg) (h3 hb)
  | through hm hf hg hj _ ih =>
    obtain ⟨m', hm', hh⟩ := h _ _ hs _ hm
    obtain ⟨f', hf', h1, h2, _⟩ := hh _ hf
    obtain ⟨j', hj', hsj⟩ := h2.mess hj
    exact .through hm' hf' (h1 hg) hj' (ih hsj)

/-! ## Compiling -/

theorem resolvesOne_alike {D D' : FileDescriptor} (hC : Covers D D') (hU : OneMeaning D) {m m' : Message} (hs : m.setImported = m'.setImported) {t0 t t' : FieldType}
    (hcap : ∀ n, t0 = .messageOrEnum n → ∀ c ∈ candidates m' n, ∀ t, Declares D c t → ∃ t', Declares D' c t') (hraw : (∀ i, t0 ≠ .message i) ∧ ∀ k v, t0 ≠ .map k v)
    (h : ResolvesOne D m t0 t) (h' : ResolvesOne D' m' t0 t') : Alike (Twin D D') t t' := by
  cases t0
  case messageOrEnum n =>
    have := means_same hC hU hs (hcap n rfl) h h'
    cases t <;> cases t' <;> first | exact (this : False).elim | exact .enum | exact .message this
  case message i => exact (hraw.1 i rfl).elim
  case map k v => exact (hraw.2 k v rfl).elim
  all_goals
    have h : t = _ := h
    have h' : t' = _ := h'
    subst h h'
    exact .same (fun _ h => by cases h) (fun _ _ h => by cases h)

theorem Alike.ownedOne {S : MessageIndex → MessageIndex → Prop} {t t' : FieldType} (h : Alike S t t') : Alike S t.ownedOne t'.ownedOne := by
  cases h with
  | message h => exact .message h
  | enum => exact .enum
  | same h1 h2 =>
    cases t <;> first | exact (h1 _ rfl).elim | exact (h2 _ _ rfl).elim | exact .same (fun _ h => by cases h) (fun _ _ h => by cases h)
  | map h1 h2 => exact .map h1 h2

theorem Alike.owned {S : MessageIndex → MessageIndex → Prop} {t t' : FieldType} (h : Alike S t t') : Alike S t.owned t'.owned := by
  cases h with
  | message h => exact .message h
  | enum => exact .enum
  | same h1 h2 =>
    cases t <;> first | exact (h1 _ rfl).elim | exact (h2 _ _ rfl).elim | exact .same (fun _ h => by cases h) (fun _ _ h => by cases h)
  | map h1 h2 => exact .map h1.ownedOne h2.ownedOne

/-- A type as it is before resolving: no message, and no map in a map. -/
def Unresolved : FieldType → Prop
  | .message _ => False
  | .map k v => ((∀ i, k ≠ .message i) ∧ ∀ a b, k ≠ .map a b) ∧ ((∀ i, v ≠ .message i) ∧ ∀ a b, v ≠ .map a b)
  | _ => True

theorem resolves_alike {D D' : FileDescriptor} (hC : Covers D D') (hU : OneMeaning D) {m m' : Message} (hs : m.setImported = m'.setImported) {t0 t t' : FieldType}
    (hcap : ∀ n, t0.uses n → ∀ c ∈ candidates m' n, ∀ t, Declares D c t → ∃ t', Declares D' c t') (hraw : Unresolved t0)
    (h : ResolvesTo D m t0 t) (h' : ResolvesTo D' m' t0 t') : Alike (Twin D D') t t' := by
  cases t0
  case map k v =>
    obtain ⟨k1, v1, rfl, a1, a2⟩ := h
    obtain ⟨k2, v2, rfl, b1, b2⟩ := h'
    exact .map (resolvesOne_alike hC hU hs (fun n hn => hcap n (Or.inr ⟨k, v, rfl, Or.inl hn⟩)) hraw.1 a1 b1)
      (resolvesOne_alike hC hU hs (fun n hn => hcap n (Or.inr ⟨k, v, rfl, Or.inr hn⟩)) hraw.2 a2 b2)
  case message i => exact hraw.elim
  all_goals exact resolvesOne_alike hC hU hs (fun n hn => hcap n (Or.inl hn)) ⟨fun _ h => (by cases h), fun _ _ h => (by cases h)⟩ h h'

theorem compiled_alike {D D' : FileDescriptor} {cfg : Config} {i i' : MessageIndex} {m m' : Message} {f0 f f' : Field} (hl : i.length = i'.length)
    (hsy : D.syntax_ = D'.syntax_) (h : FieldCompiled D cfg i m f0 f) (h' : FieldCompiled D' cfg i' m' f0 f') (ha : Alike (Twin D D') f.typ f'.typ) :
    (Generated cfg f ↔ Generated cfg f') ∧ (BorrowsItself f → BorrowsItself f') ∧ (BorrowsItself f' → BorrowsItself f) := by
  have hg : f.deprecated = f'.deprecated := h.deprecated.trans h'.deprecated.symm
  have key : ∀ {D D' : FileDescriptor} {i i' : MessageIndex} {m m' : Message} {f f' : Field} {S : MessageIndex → MessageIndex → Prop}, i.length = i'.length →
      D.syntax_ = D'.syntax_ → FieldCompiled D cfg i m f0 f → FieldCompiled D' cfg i' m' f0 f' → Alike S f.typ f'.typ → BorrowsItself f → BorrowsItself f' := by
    intro D D' i i' m m' f f' S hl hsy h h' ha hb
    rcases hb with hb | ⟨h1, h2, h3⟩
    · exact Or.inl (ha.cow hb)
    · have ht := ha.fixed h3
      have hno : ∀ j, f.typ ≠ .message j := by intro j hj; rw [hj] at h3; cases h3
      refine Or.inr ⟨?_, ?_, by rw [ht]; exact h3⟩
      · have e1 : f.frequency = f0.frequency := by
          rcases h.frequency with e | ⟨⟨j, hj⟩, _⟩
          · exact e
          · exact (hno j hj).elim
        have e2 : f'.frequency = f0.frequency := by
          rcases h'.frequency with e | ⟨⟨j, hj⟩, _⟩
          · exact e
          · exact (hno j (ht.symm.trans hj)).elim
        rw [e2, ← e1]
        exact h1
      · rw [h'.packed, ht, ← hl, ← hsy, ← h.packed]
        exact h2
  refine ⟨?_, key hl hsy h h' ha, key hl.symm hsy.symm h' h ha.symm⟩
  unfold Generated
  rw [hg]

/-- Compiling keeps the correspondence. -/
theorem compile_corresponds {path path' : FileDescriptor → FieldType → Str} {cfg : Config} {D D' E E' : FileDescriptor} (h : D.compile path cfg = .ok E)
    (h' : D'.compile path' cfg = .ok E') (hC : Covers D D') (hU : OneMeaning D) (hN : NotCaptured D D') (hsy : D.syntax_ = D'.syntax_)
    (hraw : ∀ i m, D.getMessage i = some m → ∀ f ∈ m.allFields, Unresolved f.typ) :
    Corresponds cfg (Twin D D') E E' ∧ Corresponds cfg (fun a b => Twin D D' b a) E' E := by
  obtain ⟨H, hV, hF⟩ := compile_via h
  obtain ⟨H', hV', hF'⟩ := compile_via h'
  have key : ∀ i i', Twin D D' i i' → ∃ x x' m m', D.getMessage i = some x ∧ D'.getMessage i' = some x' ∧ E.getMessage i = some m ∧ E'.getMessage i' = some m' ∧
      x.allFields = x'.allFields ∧ m.allFields = x.allFields.map (H i) ∧ m'.allFields = x'.allFields.map (H' i') ∧
      ∀ f0 ∈ x.allFields, Alike (Twin D D') (H i f0).typ (H' i' f0).typ ∧ (Generated cfg (H i f0) ↔ Generated cfg (H' i' f0)) ∧
        (BorrowsItself (H i f0) → BorrowsItself (H' i' f0)) ∧ (BorrowsItself (H' i' f0) → BorrowsItself (H i f0)) := by
    rintro i i' ⟨hl, x, x', hx, hx', hs⟩
    obtain ⟨m, hm, _, _, ha⟩ := hV.message_fwd hx
    obtain ⟨m', hm', _, _, ha'⟩ := hV'.message_fwd hx'
    have hsame := same_allFields hs
    refine ⟨x, x', m, m', hx, hx', hm, hm', hsame, ha, ha', fun f0 hf0 => ?_⟩
    have c := hF i x hx f0 hf0
    have c' := hF' i' x' hx' f0 (hsame ▸ hf0)
    obtain ⟨t, ht, et⟩ := c.typ
    obtain ⟨t', ht', et'⟩ := c'.typ
    have al : Alike (Twin D D') t t' := resolves_alike hC hU hs (fun n hn => hN i' x' hx' f0 (hsame ▸ hf0) n hn) (hraw i x hx f0 hf0) ht ht'
    have al' : Alike (Twin D D') (H i f0).typ (H' i' f0).typ := by
      rw [et, et']
      split
      · exact al.owned
      · exact al
    exact ⟨al', compiled_alike hl hsy c c' al'⟩
  constructor
  · intro i i' hs m hm
    obtain ⟨x, x', m1, m', hx, hx', hm1, hm', hsame, ha, ha', hh⟩ := key i i' hs
    cases hm.symm.trans hm1
    refine ⟨m', hm', fun f hf => ?_⟩
    rw [ha] at hf
    obtain ⟨f0, hf0, rfl⟩ := List.mem_map.mp hf
    obtain ⟨k1, k2, k3, k4⟩ := hh f0 hf0
    exact ⟨H' i' f0, by rw [ha', ← hsame]; exact List.mem_map_of_mem hf0, k2.mp, k1, k3⟩
  · intro i' i hs m' hm'
    obtain ⟨x, x', m, m1, hx, hx', hm, hm1, hsame, ha, ha', hh⟩ := key i i' hs
    cases hm'.symm.trans hm1
    refine ⟨m, hm, fun f hf => ?_⟩
    rw [ha', ← hsame] at hf
    obtain ⟨f0, hf0, rfl⟩ := List.mem_map.mp hf
    obtain ⟨k1, k2, k3, k4⟩ := hh f0 hf0
    exact ⟨H i f0, by rw [ha]; exact List.mem_map_of_mem hf0, k2.mpr, k1.symm, k4⟩

end QP.Pbrs
