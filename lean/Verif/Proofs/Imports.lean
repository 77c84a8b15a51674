import Verif.Spec.Imports
import Verif.Spec.Pipeline
import Verif.Proofs.ParserPost
import Verif.Proofs.Resolve
import Verif.Proofs.Panics
/-!
# Lemmas on reading files
-/

set_option linter.unusedVariables false

namespace QP.Pbrs
open Parse

theorem setPackageAll_eq (p q : Str) (ms : List Message) :
    Message.setPackageAll p q ms = ms.map (Message.setPackage p q) := by
  induction ms with
  | nil => rfl
  | cons m ms ih => simp [Message.setPackageAll, ih]

theorem setImportedAll_eq (ms : List Message) : Message.setImportedAll ms = ms.map Message.setImported := by
  induction ms with
  | nil => rfl
  | cons m ms ih => simp [Message.setImportedAll, ih]

theorem setPackage_out {m : Message} (h : MessageOut m) : ∀ p q, MessageOut (m.setPackage p q) := by
  induction h with
  | @mk m h1 h2 h3 ih =>
    intro p q
    cases m
    refine .mk h1 ?_ ?_
    · intro o ho
      simp only [Message.setPackage] at ho
      obtain ⟨o', ho', rfl⟩ := List.mem_map.mp ho
      exact h2 o' ho'
    · intro n hn
      simp only [Message.setPackage, setPackageAll_eq] at hn
      obtain ⟨n', hn', rfl⟩ := List.mem_map.mp hn
      exact ih n' hn' _ _

theorem setImported_out {m : Message} (h : MessageOut m) : MessageOut m.setImported := by
  induction h with
  | @mk m h1 h2 h3 ih =>
    cases m
    refine .mk h1 ?_ ?_
    · intro o ho
      simp only [Message.setImported] at ho
      obtain ⟨o', ho', rfl⟩ := List.mem_map.mp ho
      exact h2 o' ho'
    · intro n hn
      simp only [Message.setImported, setImportedAll_eq] at hn
      obtain ⟨n', hn', rfl⟩ := List.mem_map.mp hn
      exact ih n' hn'

theorem adopt_out {m : Message} {p q : Str} (h : MessageOut m) : MessageOut (m.adopt p q) := by
  unfold Message.adopt
  split
  · exact setImported_out (setPackage_out h _ _)
  · exact setImported_out h

theorem readProto_out {s r : Str} {F : File} (h : readProto s = .ok F r) : ∀ m ∈ F.desc.messages, MessageOut m := by
  unfold readProto at h
  split at h
  · rename_i f rem hf
    split at h
    · cases h
      unfold fileDescriptor at hf
      split at hf
      · rename_i syn _ _
        have := fileEvents_post (pan := True) (syn := syn) (s := s) (Or.inl trivial)
        rw [hf] at this
        exact this.2
      · cases hf
      · cases hf
    · cases h
  · cases h
  · cases h

theorem parseFile_out {p text : Str} {D : FileDescriptor} {imps : List Str} (h : parseFile p text = .ok (D, imps)) :
    ∀ m ∈ D.messages, MessageOut m := by
  unfold parseFile at h
  split at h
  · cases h
  · cases h
  · rename_i F r hF
    simp only [Except.ok.injEq, Prod.mk.injEq] at h
    obtain ⟨rfl, rfl⟩ := h
    intro m hm
    simp only [FileDescriptor.setPackages, setPackageAll_eq] at hm
    obtain ⟨m', hm', rfl⟩ := List.mem_map.mp hm
    exact setPackage_out (readProto_out hF m' hm') _ _

/-- A property of the messages of files that survives being adopted holds of all messages read. -/
theorem fetch_all {P : Message → Prop} {fs : Files} {search : List Str} {read : Str → Except ReadError FileDescriptor} {file : Str}
    (hread : ∀ q D, read q = .ok D → ∀ m ∈ D.messages, P m) (hP : ∀ m p q, P m → P (m.adopt p q)) {imps : List Str} :
    ∀ {D D' : FileDescriptor}, (∀ m ∈ D.messages, P m) → fetchImports fs search read file imps D = .ok D' →
      ∀ m ∈ D'.messages, P m := by
  induction imps with
  | nil => intro D D' hD h; cases h; exact hD
  | cons imp imps ih =>
    intro D D' hD h
    simp only [fetchImports] at h
    split at h
    · cases h
    · rename_i p hp
      split at h
      · cases h
      · rename_i f hf
        refine ih ?_ h
        intro m hm
        simp only at hm
        rcases List.mem_append.mp hm with hm | hm
        · exact hD m hm
        · obtain ⟨m', hm', rfl⟩ := List.mem_map.mp hm
          exact hP _ _ _ (hread _ _ hf m' hm')

theorem readProtoFile_out {fs : Files} {search : List Str} (n : Nat) : ∀ {file : Str} {D : FileDescriptor},
    readProtoFile fs search n file = .ok D → ∀ m ∈ D.messages, MessageOut m := by
  induction n with
  | zero => intro file D h; cases h
  | succ n ih =>
    intro file D h
    simp only [readProtoFile] at h
    split at h
    · cases h
    · split at h
      · cases h
      · rename_i D0 imps hp
        exact fetch_all (fun q D h => ih h) (fun m p q h => adopt_out h) (parseFile_out hp) h

theorem descend_out {js : List Nat} : ∀ {m x : Message}, MessageOut m → m.descend js = some x → MessageOut x := by
  induction js with
  | nil => intro m x h hx; cases hx; exact h
  | cons j js ih =>
    intro m x h hx
    simp only [Message.descend, Option.bind_eq_some_iff] at hx
    obtain ⟨y, hy, hx⟩ := hx
    cases h with
    | mk _ _ h3 => exact ih (h3 y (List.mem_of_getElem? hy)) hx

theorem getMessage_out {D : FileDescriptor} (h : ∀ m ∈ D.messages, MessageOut m) {i : MessageIndex} {m : Message}
    (hm : D.getMessage i = some m) : MessageOut m := by
  cases i with
  | nil => cases hm
  | cons j js =>
    simp only [FileDescriptor.getMessage, Option.bind_eq_some_iff] at hm
    obtain ⟨y, hy, hm⟩ := hm
    exact descend_out (h y (List.mem_of_getElem? hy)) hm

theorem rawOne_of_deep {t : FieldType} (h : deepRaw t = true) (hm : t.isMap = false) : t.rawOne = true := by
  cases t <;> first | rfl | (cases h; done) | (cases hm; done)

theorem raw_of_deep {t : FieldType} (h : deepRaw t = true) (hf : t.flat = true) : t.raw = true := by
  cases t with
  | map k v =>
    simp only [deepRaw, Bool.and_eq_true] at h
    simp only [FieldType.flat, Bool.and_eq_true, Bool.not_eq_true'] at hf
    simp [FieldType.raw, rawOne_of_deep h.1 hf.1, rawOne_of_deep h.2 hf.2]
  | _ => first | rfl | cases h

theorem parsed_of_out {D : FileDescriptor} (h : ∀ m ∈ D.messages, MessageOut m) (hf : NoNestedMaps D) : Parsed D := by
  have all : ∀ i m, D.getMessage i = some m → ∀ f ∈ m.allFields, FieldOut f := by
    intro i m hm f hfm
    cases getMessage_out h hm with
    | mk h1 h2 _ =>
      rcases List.mem_append.mp hfm with hfm | hfm
      · exact (h1 f hfm).1
      · obtain ⟨o, ho, hfo⟩ := List.mem_flatMap.mp hfm
        exact h2 o ho f hfo
  refine ⟨fun i m hm f hfm => raw_of_deep (all i m hm f hfm).typ (hf i m hm f hfm), fun i m hm f hfm => (all i m hm f hfm).boxed, ?_⟩
  intro i m hm f hfm
  cases getMessage_out h hm with
  | mk h1 _ _ => exact (h1 f hfm).2

/-! ## Import relations -/

theorem findImport_iff {fs : Files} {search : List Str} {p imp q : Str} :
    findImport fs search p imp = some q ↔ ImportMeans fs search p imp q := by
  unfold findImport ImportMeans
  induction search with
  | nil => simp
  | cons d ds ih =>
    simp only [List.map_cons, List.find?_cons]
    constructor
    · intro h
      split at h
      · rename_i hd
        cases h
        exact ⟨[], d, ds, rfl, rfl, hd, by intro d hd; cases hd⟩
      · rename_i hd
        obtain ⟨b, dir, a, rfl, h1, h2, h3⟩ := ih.mp h
        refine ⟨d :: b, dir, a, rfl, h1, h2, ?_⟩
        intro d' hd'
        rcases List.mem_cons.mp hd' with rfl | hd'
        · simpa using hd
        · exact h3 d' hd'
    · rintro ⟨b, dir, a, h0, h1, h2, h3⟩
      cases b with
      | nil =>
        simp only [List.nil_append, List.cons.injEq] at h0
        obtain ⟨rfl, rfl⟩ := h0
        subst h1
        rw [h2]
      | cons d' b =>
        simp only [List.cons_append, List.cons.injEq] at h0
        obtain ⟨rfl, rfl⟩ := h0
        have := h3 d (by simp)
        rw [this]
        simp only [Option.isSome_none]
        exact ih.mpr ⟨b, dir, a, rfl, h1, h2, fun d' hd' => h3 d' (by simp [hd'])⟩

theorem reads_unique {fs : Files} {p : Str} {D D' : FileDescriptor} {i i' : List Str} (h : Reads fs p D i) (h' : Reads fs p D' i') :
    D = D' ∧ i = i' := by
  obtain ⟨t, h1, h2⟩ := h
  obtain ⟨t', h1', h2'⟩ := h'
  rw [h1] at h1'; cases h1'
  rw [h2] at h2'; cases h2'
  exact ⟨rfl, rfl⟩

/-- If the imports are fetched, each of them has been read. -/
theorem fetch_ok_reads {fs : Files} {search : List Str} {read : Str → Except ReadError FileDescriptor} {file : Str} {imps : List Str} :
    ∀ {D D' : FileDescriptor}, fetchImports fs search read file imps D = .ok D' →
      ∀ imp ∈ imps, ∃ q f, findImport fs search file imp = some q ∧ read q = .ok f := by
  induction imps with
  | nil => intro D D' h imp hi; cases hi
  | cons i imps ih =>
    intro D D' h imp hi
    simp only [fetchImports] at h
    split at h
    · cases h
    · rename_i p hp
      split at h
      · cases h
      · rename_i f hf
        rcases List.mem_cons.mp hi with rfl | hi
        · exact ⟨p, f, hp, hf⟩
        · exact ih h imp hi

theorem readProtoFile_inv {fs : Files} {search : List Str} {n : Nat} {file : Str} {D : FileDescriptor}
    (h : readProtoFile fs search (n + 1) file = .ok D) :
    ∃ D0 imps, Reads fs file D0 imps ∧ fetchImports fs search (readProtoFile fs search n) file imps D0 = .ok D := by
  simp only [readProtoFile] at h
  split at h
  · cases h
  · rename_i text ht
    split at h
    · cases h
    · rename_i D0 imps hp
      exact ⟨D0, imps, ⟨text, ht, hp⟩, h⟩

/-- A file that is read has had its imports read, with one call less. -/
theorem imports_read {fs : Files} {search : List Str} {n : Nat} {p q : Str} {D : FileDescriptor}
    (h : readProtoFile fs search (n + 1) p = .ok D) (hi : Imports fs search p q) :
    ∃ E, readProtoFile fs search n q = .ok E := by
  obtain ⟨D0, imps, hr, hf⟩ := readProtoFile_inv h
  obtain ⟨D1, imps1, imp, hr1, him, hq⟩ := hi
  obtain ⟨rfl, rfl⟩ := reads_unique hr hr1
  obtain ⟨q', f, h1, h2⟩ := fetch_ok_reads hf imp him
  rw [findImport_iff.mpr hq] at h1
  cases h1
  exact ⟨f, h2⟩

theorem fetch_error {fs : Files} {search : List Str} {read : Str → Except ReadError FileDescriptor} {file : Str} {imps : List Str} {e : ReadError} :
    ∀ {D : FileDescriptor}, fetchImports fs search read file imps D = .error e →
      (∃ imp ∈ imps, findImport fs search file imp = none ∧ e = .invalidImport imp) ∨
      ∃ imp ∈ imps, ∃ q, findImport fs search file imp = some q ∧ read q = .error e := by
  induction imps with
  | nil => intro D h; cases h
  | cons i imps ih =>
    intro D h
    simp only [fetchImports] at h
    split at h
    · rename_i hp
      cases h
      exact Or.inl ⟨i, by simp, hp, rfl⟩
    · rename_i p hp
      split at h
      · rename_i e' hf
        cases h
        exact Or.inr ⟨i, by simp, p, hp, hf⟩
      · rcases ih h with ⟨j, hj, h1⟩ | ⟨j, hj, h1⟩
        · exact Or.inl ⟨j, by simp [hj], h1⟩
        · exact Or.inr ⟨j, by simp [hj], h1⟩

theorem bareAll_eq (ms : List Message) : Message.bareAll ms = ms.map Message.bare := by
  induction ms with
  | nil => rfl
  | cons m ms ih => simp [Message.bareAll, ih]

theorem bare_setPackage (m : Message) : ∀ p q, (m.setPackage p q).bare = m.bare := by
  suffices h : ∀ n, ∀ m : Message, sizeOf m ≤ n → ∀ p q, (m.setPackage p q).bare = m.bare from h _ m (Nat.le_refl _)
  intro n
  induction n with
  | zero => intro m hm; cases m; simp at hm
  | succ n ih =>
    rintro ⟨name, fields, oneofs, nums, names, imported, pkg, messages, enums, module, index⟩ hm p q
    simp only [Message.setPackage, Message.bare, setPackageAll_eq, bareAll_eq, List.map_map, Message.mk.injEq, true_and, and_true]
    refine ⟨rfl, List.map_congr_left fun x hx => ?_, rfl⟩
    have := List.sizeOf_lt_of_mem hx
    simp at hm
    exact ih x (by omega) _ _

theorem bare_setImported (m : Message) : m.setImported.bare = m.bare := by
  suffices h : ∀ n, ∀ m : Message, sizeOf m ≤ n → m.setImported.bare = m.bare from h _ m (Nat.le_refl _)
  intro n
  induction n with
  | zero => intro m hm; cases m; simp at hm
  | succ n ih =>
    rintro ⟨name, fields, oneofs, nums, names, imported, pkg, messages, enums, module, index⟩ hm
    simp only [Message.setImported, Message.bare, setImportedAll_eq, bareAll_eq, List.map_map, Message.mk.injEq, true_and, and_true]
    refine ⟨rfl, List.map_congr_left fun x hx => ?_, rfl⟩
    have := List.sizeOf_lt_of_mem hx
    simp at hm
    exact ih x (by omega)

theorem bare_adopt (m : Message) (p q : Str) : (m.adopt p q).bare = m.bare := by
  unfold Message.adopt
  rw [bare_setImported]
  split
  · exact bare_setPackage _ _ _
  · rfl

theorem enum_adopt_same (e : Enumerator) (p q : Str) : (e.adopt p q).name = e.name ∧ (e.adopt p q).fields = e.fields := by
  unfold Enumerator.adopt
  split <;> exact ⟨rfl, rfl⟩

/-- Nothing is lost in `fetchImports`. -/
theorem fetch_complete {fs : Files} {search : List Str} {read : Str → Except ReadError FileDescriptor} {file : Str} {imps : List Str} :
    ∀ {D D' : FileDescriptor}, fetchImports fs search read file imps D = .ok D' →
      (∀ m ∈ D.messages, m ∈ D'.messages) ∧ (∀ e ∈ D.enums, e ∈ D'.enums) ∧
      ∀ imp ∈ imps, ∃ q f, findImport fs search file imp = some q ∧ read q = .ok f ∧
        (∀ m ∈ f.messages, m.adopt f.package f.module ∈ D'.messages) ∧ ∀ e ∈ f.enums, e.adopt f.package f.module ∈ D'.enums := by
  induction imps with
  | nil => intro D D' h; cases h; exact ⟨fun m hm => hm, fun m hm => hm, fun i hi => by cases hi⟩
  | cons i imps ih =>
    intro D D' h
    simp only [fetchImports] at h
    split at h
    · cases h
    · rename_i p hp
      split at h
      · cases h
      · rename_i f hf
        obtain ⟨h1, h2, h3⟩ := ih h
        simp only [List.mem_append] at h1 h2
        refine ⟨fun m hm => h1 m (.inl hm), fun m hm => h2 m (.inl hm), fun imp hi => ?_⟩
        rcases List.mem_cons.mp hi with rfl | hi
        · exact ⟨p, f, hp, hf, fun m hm => h1 _ (.inr (List.mem_map_of_mem hm)), fun m hm => h2 _ (.inr (List.mem_map_of_mem hm))⟩
        · exact h3 imp hi

theorem complete_star {fs : Files} {search : List Str} {p q : Str} (hs : ImportsStar fs search p q) : ∀ {n : Nat} {D : FileDescriptor},
    readProtoFile fs search n p = .ok D → ∃ k E, readProtoFile fs search k q = .ok E ∧
      (∀ m0 ∈ E.messages, ∃ m ∈ D.messages, m.bare = m0.bare) ∧
      (∀ e0 ∈ E.enums, ∃ e ∈ D.enums, e.name = e0.name ∧ e.fields = e0.fields) := by
  induction hs with
  | refl => intro n D h; exact ⟨n, D, h, fun m hm => ⟨m, hm, rfl⟩, fun m hm => ⟨m, hm, rfl, rfl⟩⟩
  | @step q r _ hi ih =>
    intro n D h
    obtain ⟨k, E, hE, h1, h2⟩ := ih h
    cases k with
    | zero => cases hE
    | succ k =>
      obtain ⟨D0, imps, hr, hf⟩ := readProtoFile_inv hE
      obtain ⟨D1, imps1, imp, hr1, him, hq⟩ := hi
      obtain ⟨rfl, rfl⟩ := reads_unique hr hr1
      obtain ⟨_, _, g3⟩ := fetch_complete hf
      obtain ⟨q', f, e1, e2, e3, e4⟩ := g3 imp him
      rw [findImport_iff.mpr hq] at e1
      cases e1
      refine ⟨k, f, e2, fun m0 hm => ?_, fun e0 he => ?_⟩
      · obtain ⟨m, hm, hb⟩ := h1 _ (e3 m0 hm)
        exact ⟨m, hm, hb.trans (bare_adopt _ _ _)⟩
      · obtain ⟨e, he, hb1, hb2⟩ := h2 _ (e4 e0 he)
        have := enum_adopt_same e0 f.package f.module
        exact ⟨e, he, hb1.trans this.1, hb2.trans this.2⟩

end QP.Pbrs

namespace QP.Pbrs

theorem setPackage_idem (m : Message) : ∀ p q, (m.setPackage p q).setPackage p q = m.setPackage p q := by
  suffices h : ∀ n, ∀ m : Message, sizeOf m ≤ n → ∀ p q, (m.setPackage p q).setPackage p q = m.setPackage p q from
    h _ m (Nat.le_refl _)
  intro n
  induction n with
  | zero => intro m hm; cases m; simp at hm
  | succ n ih =>
    rintro ⟨name, fields, oneofs, nums, names, imported, pkg, messages, enums, module, index⟩ hm p q
    simp only [Message.setPackage, setPackageAll_eq, List.map_map]
    simp only [Message.mk.injEq, true_and, and_true]
    refine ⟨rfl, ?_, ?_, rfl⟩
    · split <;> rfl
    · refine List.map_congr_left fun x hx => ?_
      simp only [Function.comp]
      apply ih
      have := List.sizeOf_lt_of_mem hx
      simp at hm
      omega

theorem setImported_idem (m : Message) : m.setImported.setImported = m.setImported := by
  suffices h : ∀ n, ∀ m : Message, sizeOf m ≤ n → m.setImported.setImported = m.setImported from
    h _ m (Nat.le_refl _)
  intro n
  induction n with
  | zero => intro m hm; cases m; simp at hm
  | succ n ih =>
    rintro ⟨name, fields, oneofs, nums, names, imported, pkg, messages, enums, module, index⟩ hm
    simp only [Message.setImported, setImportedAll_eq, List.map_map]
    simp only [Message.mk.injEq, true_and, and_true]
    refine ⟨rfl, ?_, rfl⟩
    refine List.map_congr_left fun x hx => ?_
    simp only [Function.comp]
    apply ih
    have := List.sizeOf_lt_of_mem hx
    simp at hm
    omega

theorem setImported_package (m : Message) : m.setImported.package = m.package := by
  cases m; rfl

/-- The messages of a file have been given the package and module of the file. -/
theorem reads_packaged {fs : Files} {p : Str} {D : FileDescriptor} {imps : List Str} (h : Reads fs p D imps) :
    (∀ m ∈ D.messages, ∃ m' : Message, m = m'.setPackage D.package D.module) ∧ (∀ e ∈ D.enums, ∃ e' : Enumerator, e = e'.setPackage D.package D.module) := by
  obtain ⟨t, _, h2⟩ := h
  unfold parseFile at h2
  split at h2
  · cases h2
  · cases h2
  · simp only [Except.ok.injEq, Prod.mk.injEq] at h2
    obtain ⟨rfl, _⟩ := h2
    constructor
    · intro m hm
      simp only [FileDescriptor.setPackages, setPackageAll_eq] at hm
      obtain ⟨m', _, rfl⟩ := List.mem_map.mp hm
      exact ⟨m', rfl⟩
    · intro e he
      simp only [FileDescriptor.setPackages] at he
      obtain ⟨e', _, rfl⟩ := List.mem_map.mp he
      exact ⟨e', rfl⟩

theorem adopt_own (m' : Message) (p q : Str) : (m'.setPackage p q).adopt p q = (m'.setPackage p q).setImported := by
  unfold Message.adopt
  split
  · rw [setPackage_idem]
  · rfl

theorem enum_adopt_own (e' : Enumerator) (p q : Str) :
    (e'.setPackage p q).adopt p q = { e'.setPackage p q with imported := true } := by
  unfold Enumerator.adopt
  split <;> rfl

theorem adopt_packaged {m : Message} (h : m.package ≠ []) (p q : Str) : m.adopt p q = m.setImported := by
  unfold Message.adopt
  rw [if_neg]
  simpa using h

theorem enum_adopt_packaged {e : Enumerator} (h : e.package ≠ []) (p q : Str) : e.adopt p q = { e with imported := true } := by
  unfold Enumerator.adopt
  rw [if_neg]
  simpa using h

theorem setPackage_package {m : Message} {p q : Str} (h : p ≠ []) : (m.setPackage p q).package = p := by
  cases m
  simp only [Message.setPackage]
  rw [if_neg]
  simpa using h

/-- Where the messages and enums of the result of `fetchImports` come from. -/
theorem fetch_sources {fs : Files} {search : List Str} {read : Str → Except ReadError FileDescriptor} {file : Str} {imps : List Str} :
    ∀ {D D' : FileDescriptor}, fetchImports fs search read file imps D = .ok D' →
      (D'.package = D.package ∧ D'.module = D.module) ∧
      (∀ m ∈ D'.messages, m ∈ D.messages ∨ ∃ imp ∈ imps, ∃ q f, findImport fs search file imp = some q ∧ read q = .ok f ∧
        ∃ m' ∈ f.messages, m = m'.adopt f.package f.module) ∧
      (∀ m ∈ D'.enums, m ∈ D.enums ∨ ∃ imp ∈ imps, ∃ q f, findImport fs search file imp = some q ∧ read q = .ok f ∧
        ∃ m' ∈ f.enums, m = m'.adopt f.package f.module) := by
  induction imps with
  | nil => intro D D' h; cases h; exact ⟨⟨rfl, rfl⟩, fun m hm => Or.inl hm, fun m hm => Or.inl hm⟩
  | cons i imps ih =>
    intro D D' h
    simp only [fetchImports] at h
    split at h
    · cases h
    · rename_i p hp
      split at h
      · cases h
      · rename_i f hf
        obtain ⟨h0, h1, h2⟩ := ih h
        refine ⟨h0, fun m hm => ?_, fun m hm => ?_⟩
        · rcases h1 m hm with hm | ⟨imp, hi, hm⟩
          · simp only at hm
            rcases List.mem_append.mp hm with hm | hm
            · exact Or.inl hm
            · obtain ⟨m', hm', rfl⟩ := List.mem_map.mp hm
              exact Or.inr ⟨i, by simp, p, f, hp, hf, m', hm', rfl⟩
          · exact Or.inr ⟨imp, by simp [hi], hm⟩
        · rcases h2 m hm with hm | ⟨imp, hi, hm⟩
          · simp only at hm
            rcases List.mem_append.mp hm with hm | hm
            · exact Or.inl hm
            · obtain ⟨m', hm', rfl⟩ := List.mem_map.mp hm
              exact Or.inr ⟨i, by simp, p, f, hp, hf, m', hm', rfl⟩
          · exact Or.inr ⟨imp, by simp [hi], hm⟩

theorem ImportsStar.head {fs : Files} {search : List Str} {p q r : Str} (h : Imports fs search p q)
    (h' : ImportsStar fs search q r) : ImportsStar fs search p r := by
  induction h' with
  | refl => exact .step (.refl _) h
  | step _ h2 ih => exact .step ih h2

/-- Every file that `q` imports, directly or not, has a package. -/
def AllPackaged (fs : Files) (search : List Str) (q : Str) : Prop :=
  ∀ p r, ImportsStar fs search q p → Imports fs search p r → ∀ D imps, Reads fs r D imps → D.package ≠ []

theorem sources {fs : Files} {search : List Str} (n : Nat) : ∀ {q : Str} {D : FileDescriptor}, AllPackaged fs search q →
    readProtoFile fs search n q = .ok D → ∃ D0 imps, Reads fs q D0 imps ∧ D.package = D0.package ∧ D.module = D0.module ∧
      (∀ m ∈ D.messages, m ∈ D0.messages ∨ (m.package ≠ [] ∧ ∃ s r E is, Imports fs search q s ∧ ImportsStar fs search s r ∧ Reads fs r E is ∧
        ∃ m0 ∈ E.messages, m = m0.setImported)) ∧
      (∀ m ∈ D.enums, m ∈ D0.enums ∨ (m.package ≠ [] ∧ ∃ s r E is, Imports fs search q s ∧ ImportsStar fs search s r ∧ Reads fs r E is ∧
        ∃ m0 ∈ E.enums, m = { m0 with imported := true })) := by
  induction n with
  | zero => intro q D _ h; cases h
  | succ n ih =>
    intro q D hp h
    obtain ⟨D0, imps, hr, hf⟩ := readProtoFile_inv h
    obtain ⟨h0, h1, h2⟩ := fetch_sources hf
    have below : ∀ imp ∈ imps, ∀ r, findImport fs search q imp = some r → Imports fs search q r :=
      fun imp hi r hfi => ⟨D0, imps, imp, hr, hi, findImport_iff.mp hfi⟩
    have hp' : ∀ r, Imports fs search q r → AllPackaged fs search r :=
      fun r hi p s hs hi' => hp p s (ImportsStar.head hi hs) hi'
    refine ⟨D0, imps, hr, h0.1, h0.2, fun m hm => ?_, fun m hm => ?_⟩
    · rcases h1 m hm with hm | ⟨imp, hi, r, f, hfi, hrd, m', hm', rfl⟩
      · exact Or.inl hm
      · have hq := below imp hi r hfi
        obtain ⟨E, is, hE, e1, e2, hms, _⟩ := ih (hp' r hq) hrd
        have hne := hp q r (.refl q) hq E is hE
        rcases hms m' hm' with hm0 | ⟨hne', s', s, E', is', hi', hs, hE', m0, hm0, rfl⟩
        · obtain ⟨m'', rfl⟩ := (reads_packaged hE).1 m' hm0
          rw [e1, e2, adopt_own]
          refine Or.inr ⟨?_, r, r, E, is, hq, .refl r, hE, _, hm0, rfl⟩
          rw [setImported_package, setPackage_package hne]
          exact hne
        · rw [adopt_packaged hne', setImported_idem]
          exact Or.inr ⟨hne', r, s, E', is', hq, .head hi' hs, hE', m0, hm0, rfl⟩
    · rcases h2 m hm with hm | ⟨imp, hi, r, f, hfi, hrd, m', hm', rfl⟩
      · exact Or.inl hm
      · have hq := below imp hi r hfi
        obtain ⟨E, is, hE, e1, e2, _, hms⟩ := ih (hp' r hq) hrd
        have hne := hp q r (.refl q) hq E is hE
        rcases hms m' hm' with hm0 | ⟨hne', s', s, E', is', hi', hs, hE', m0, hm0, rfl⟩
        · obtain ⟨m'', rfl⟩ := (reads_packaged hE).2 m' hm0
          rw [e1, e2, enum_adopt_own]
          exact Or.inr ⟨hne, r, r, E, is, hq, .refl r, hE, _, hm0, rfl⟩
        · rw [enum_adopt_packaged hne']
          exact Or.inr ⟨hne', r, s, E', is', hq, .head hi' hs, hE', m0, hm0, rfl⟩

/-- Where declarations are from, if only the files that `q` itself imports may be without a package. -/
theorem sources_direct {fs : Files} {search : List Str} {n : Nat} {q : Str} {D : FileDescriptor} (hp : ∀ s, Imports fs search q s → AllPackaged fs search s)
    (h : readProtoFile fs search n q = .ok D) : ∃ D0 imps, Reads fs q D0 imps ∧ D.package = D0.package ∧ D.module = D0.module ∧
      (∀ m ∈ D.messages, m ∈ D0.messages ∨ ∃ s r E is, Imports fs search q s ∧ ImportsStar fs search s r ∧ Reads fs r E is ∧
        ∃ m0 ∈ E.messages, m = m0.setImported) ∧
      (∀ m ∈ D.enums, m ∈ D0.enums ∨ ∃ s r E is, Imports fs search q s ∧ ImportsStar fs search s r ∧ Reads fs r E is ∧
        ∃ m0 ∈ E.enums, m = { m0 with imported := true }) := by
  cases n with
  | zero => cases h
  | succ n =>
    obtain ⟨D0, imps, hr, hf⟩ := readProtoFile_inv h
    obtain ⟨h0, h1, h2⟩ := fetch_sources hf
    have below : ∀ imp ∈ imps, ∀ r, findImport fs search q imp = some r → Imports fs search q r :=
      fun imp hi r hfi => ⟨D0, imps, imp, hr, hi, findImport_iff.mp hfi⟩
    refine ⟨D0, imps, hr, h0.1, h0.2, fun m hm => ?_, fun m hm => ?_⟩
    · rcases h1 m hm with hm | ⟨imp, hi, r, f, hfi, hrd, m', hm', rfl⟩
      · exact Or.inl hm
      · have hq := below imp hi r hfi
        obtain ⟨E, is, hE, e1, e2, hms, _⟩ := sources n (hp r hq) hrd
        rcases hms m' hm' with hm0 | ⟨hne', s', s, E', is', hi', hs, hE', m0, hm0, rfl⟩
        · obtain ⟨m'', rfl⟩ := (reads_packaged hE).1 m' hm0
          rw [e1, e2, adopt_own]
          exact Or.inr ⟨r, r, E, is, hq, .refl r, hE, _, hm0, rfl⟩
        · rw [adopt_packaged hne', setImported_idem]
          exact Or.inr ⟨r, s, E', is', hq, .head hi' hs, hE', m0, hm0, rfl⟩
    · rcases h2 m hm with hm | ⟨imp, hi, r, f, hfi, hrd, m', hm', rfl⟩
      · exact Or.inl hm
      · have hq := below imp hi r hfi
        obtain ⟨E, is, hE, e1, e2, _, hms⟩ := sources n (hp r hq) hrd
        rcases hms m' hm' with hm0 | ⟨hne', s', s, E', is', hi', hs, hE', m0, hm0, rfl⟩
        · obtain ⟨m'', rfl⟩ := (reads_packaged hE).2 m' hm0
          rw [e1, e2, enum_adopt_own]
          exact Or.inr ⟨r, r, E, is, hq, .refl r, hE, _, hm0, rfl⟩
        · rw [enum_adopt_packaged hne']
          exact Or.inr ⟨r, s, E', is', hq, .head hi' hs, hE', m0, hm0, rfl⟩

end QP.Pbrs
