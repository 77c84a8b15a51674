import Verif.Proofs.Legal
import Verif.Props.PathsExample
set_option linter.unusedVariables false
/-!
# Names that Rust accepts (C103)
-/

namespace QP.Rust
open QP.Pbrs RunExample

/-- C103: if no name of the input is `_` or one of the keywords that pb-rs does not know, then all names of messages, fields, oneofs, enums and enum values
are identifiers of Rust once compiled, and so is every name that the generated file declares, in any of its modules. -/
theorem C103_run_partial {junk : Str} {n : Nat} {j : Job} {d d' : Disk} {D : FileDescriptor} (hn : j.noOutput = false)
    (h : writeProto junk n j d = (.ok (), d')) (hr : readProtoFile d.file j.search n j.inFile = .ok D)
    (h3 : ∀ text, d.file j.inFile = some text → OneSyntax text)
    (hu : ∀ x, NameIn D x → Usual x) :
    ∃ p E es, j.out n d = some p ∧ j.compiled n d = some E ∧ d'.file p = some (Entry.docs es).str ∧
      fileEntries E j.cfg (splitSlash j.inFile).2 (servicesOf ((d.file j.inFile).getD [])) = some es ∧
      (∀ x, NameIn E x → RustIdent x) ∧ ∀ e, Within e es → ∀ x ∈ e.declares, RustIdent x := by
  obtain ⟨p, E, es, hp, hE, hes, ht⟩ := C88_layout hn h h3
  obtain ⟨D', hc, hEp⟩ := compiled_compile hr hE
  have hmsgs : E.messages = D'.messages := by subst hEp; unfold FileDescriptor.printed; split <;> rfl
  have henums : E.enums = D'.enums := by subst hEp; unfold FileDescriptor.printed; split <;> rfl
  have hl : ∀ x, NameIn E x → RustIdent x := by
    intro x hx
    have hx' : NameIn D' x := by
      rcases hx with ⟨i, m, hm, hx⟩ | ⟨e, he, hx⟩
      · exact Or.inl ⟨i, m, (by cases i with
          | nil => cases hm
          | cons a b => simp only [FileDescriptor.getMessage, hmsgs] at hm ⊢; exact hm), hx⟩
      · exact Or.inr ⟨e, henums ▸ he, hx⟩
    obtain ⟨y, hy, rfl⟩ := compile_nameIn hc hx'
    have hy' : NameIn D y := by
      rcases hy with ⟨i, m, hm, hx⟩ | ⟨e, he, hx⟩
      · exact Or.inl ⟨i, m, (by cases i with
          | nil => cases hm
          | cons a b => exact hm), hx⟩
      · exact Or.inr ⟨e, he, hx⟩
    exact legal_word (read_nameIn hr hy') (hu y hy')
  exact ⟨p, E, es, hp, hE, ht, hes, hl, fun e he x hx => made_legal hl (made_file hes e he x hx)⟩

def enumNames (e : Enumerator) : List Str := e.name :: e.fields.map (·.1)

/-- All names of a file. -/
def allNames (D : FileDescriptor) : List Str :=
  ((Message.preorderAll [] 0 D.messages).flatMap fun p =>
    p.2.name :: p.2.fields.map (·.name) ++ p.2.oneofs.flatMap (fun o => o.name :: o.fields.map (·.name)) ++ p.2.enums.flatMap enumNames) ++ D.enums.flatMap enumNames

theorem mem_enumNames {e : Enumerator} {x : Str} (h : EnumName e x) : x ∈ enumNames e := by
  rcases h with rfl | ⟨p, hp, rfl⟩
  · exact List.mem_cons_self ..
  · exact List.mem_cons_of_mem _ (List.mem_map_of_mem hp)

theorem mem_allNames {D : FileDescriptor} {x : Str} (h : NameIn D x) : x ∈ allNames D := by
  rcases h with ⟨i, m, hm, h⟩ | ⟨e, he, h⟩
  · refine List.mem_append_left _ (List.mem_flatMap.mpr ⟨_, (mem_preorder_file D _ _).mpr hm, ?_⟩)
    rcases h with rfl | ⟨f, hf, rfl⟩ | ⟨o, ho, h⟩ | ⟨e, he, h⟩
    · exact List.mem_cons_self ..
    · exact List.mem_append_left _ (List.mem_append_left _ (List.mem_cons_of_mem _ (List.mem_map_of_mem hf)))
    · refine List.mem_append_left _ (List.mem_append_right _ (List.mem_flatMap.mpr ⟨o, ho, ?_⟩))
      rcases h with rfl | ⟨f, hf, rfl⟩
      · exact List.mem_cons_self ..
      · exact List.mem_cons_of_mem _ (List.mem_map_of_mem hf)
    · exact List.mem_append_right _ (List.mem_flatMap.mpr ⟨e, he, mem_enumNames h⟩)
  · exact List.mem_append_right _ (List.mem_flatMap.mpr ⟨e, he, mem_enumNames h⟩)

def usualB (x : Str) : Bool := decide (x ≠ c! "_") && decide (x ∉ newKeywords) && decide (x ≠ c! "macro")

theorem usual_of {x : Str} (h : usualB x = true) : Usual x := by
  simp only [usualB, Bool.and_eq_true, decide_eq_true_eq] at h
  exact ⟨h.1.1, h.1.2, h.2⟩

/-- Names that are words of Rust, and some that are not. -/
def legalDisk : Disk := disk [(c! "x.proto", c! "syntax = \"proto3\"; message struct { message Self { bool fn = 1; } oneof match { Self type = 2; int32 _a = 3; } repeated enum_ e = 4; } enum enum_ { None = 0; self = 1; }")] []

def legalJob : Job := { inFile := c! "x.proto", outFile := c! "x.rs" }

/-- The hypotheses hold, and what is declared is what one expects. -/
theorem C103_example : ∃ d' D E es p, writeProto [] 1 legalJob legalDisk = (.ok (), d') ∧ readProtoFile legalDisk.file legalJob.search 1 legalJob.inFile = .ok D ∧
    NoNestedMaps D ∧ (∀ x, NameIn D x → Usual x) ∧ legalJob.compiled 1 legalDisk = some E ∧ legalJob.out 1 legalDisk = some p ∧
    fileEntries E {} (c! "x.proto") 0 = some es ∧ d'.file p = some (Entry.docs es).str ∧ es.flatMap Entry.declares = [c! "enum_", c! "struct_pb", c! "mod_struct_pb"] ∧
    (∀ x, NameIn E x → RustIdent x) ∧ ∀ e, Within e es → ∀ x ∈ e.declares, RustIdent x := by
  have h : (match writeProto [] 1 legalJob legalDisk, readProtoFile legalDisk.file legalJob.search 1 legalJob.inFile, legalJob.compiled 1 legalDisk with
    | (.ok (), _), .ok D, some E => ((Message.preorderAll [] 0 D.messages).all fun p => p.2.allFields.all fun f => f.typ.flat) &&
      ((Message.preorderAll [] 0 E.messages).all fun p => p.2.fields.all fun f => decide (f.frequency ≠ .p3optional)) &&
      decide (servicesOf ((legalDisk.file legalJob.inFile).getD []) = 0) && decide ((splitSlash legalJob.inFile).2 = c! "x.proto") &&
      decide ((fileEntries E {} (c! "x.proto") 0).map (fun es => es.flatMap Entry.declares) = some [c! "enum_", c! "struct_pb", c! "mod_struct_pb"]) &&
      (allNames D).all usualB
    | _, _, _ => false) = true := by decide +kernel
  split at h
  · rename_i d' D E hw hr hE
    simp only [Bool.and_eq_true, decide_eq_true_eq] at h
    obtain ⟨⟨⟨⟨⟨h1, h2⟩, h3⟩, h4⟩, h5⟩, h6⟩ := h
    have hf : NoNestedMaps D := fun i m hm f hf => List.all_eq_true.mp (List.all_eq_true.mp h1 _ ((mem_preorder_file D _ _).mpr hm)) f hf
    have hu : ∀ x, NameIn D x → Usual x := fun x hx => usual_of (List.all_eq_true.mp h6 x (mem_allNames hx))
    obtain ⟨p, E', es, g1, g2, g4, g3, g5, g6⟩ := C103_run_partial (j := legalJob) rfl hw hr (Parse.oneSyntax_file (by decide +kernel)) hu
    cases hE.symm.trans g2
    rw [h3, h4] at g3
    have g3 : fileEntries E {} (c! "x.proto") 0 = some es := g3
    rw [g3] at h5
    exact ⟨d', D, E, es, p, hw, hr, hf, hu, hE, g1, g3, g4, Option.some.inj h5, g5, g6⟩
  · cases h

/-! ## Names that Rust rejects -/

/-- A message and a field named `_`, which protoc accepts. -/
theorem C103_refuted_underscore : ∃ (d : Disk) (j : Job) (t : Str), (writeProto [] 1 j d).1.isOk = true ∧
    d.file j.inFile = some (c! "message _ { optional int32 _ = 1; }") ∧
    j = { inFile := c! "x.proto", outFile := c! "x.rs" } ∧
    (writeProto [] 1 j d).2.file (c! "x.rs") = some t ∧ c! "pub struct _ {" <:+: t ∧ c! "    pub _: Option<i32>," <:+: t := by
  refine ⟨(disk [(c! "x.proto", c! "message _ { optional int32 _ = 1; }")] []), { inFile := c! "x.proto", outFile := c! "x.rs" },
    ((writeProto [] 1 { inFile := c! "x.proto", outFile := c! "x.rs" } (disk [(c! "x.proto", c! "message _ { optional int32 _ = 1; }")] [])).2.file (c! "x.rs")).getD [],
    by decide +kernel, by decide +kernel, rfl, by decide +kernel, by decide +kernel, by decide +kernel⟩

/-- A keyword of Rust 2018 and one that is reserved. -/
theorem C103_refuted_keyword : ∃ (d : Disk) (j : Job) (t : Str), (writeProto [] 1 j d).1.isOk = true ∧
    d.file j.inFile = some (c! "message async { optional int32 await = 1; optional int32 macro = 2; }") ∧
    j = { inFile := c! "x.proto", outFile := c! "x.rs" } ∧
    (writeProto [] 1 j d).2.file (c! "x.rs") = some t ∧ c! "pub struct async {" <:+: t ∧ c! "    pub await: Option<i32>," <:+: t ∧ c! "    pub macro: Option<i32>," <:+: t := by
  refine ⟨(disk [(c! "x.proto", c! "message async { optional int32 await = 1; optional int32 macro = 2; }")] []), { inFile := c! "x.proto", outFile := c! "x.rs" },
    ((writeProto [] 1 { inFile := c! "x.proto", outFile := c! "x.rs" } (disk [(c! "x.proto", c! "message async { optional int32 await = 1; optional int32 macro = 2; }")] [])).2.file (c! "x.rs")).getD [],
    by decide +kernel, by decide +kernel, rfl, by decide +kernel, by decide +kernel, by decide +kernel, by decide +kernel⟩

/-- A package whose first part is a word of Rust. -/
theorem C103_refuted_module : ∃ (d : Disk) (j : Job) (t : Str), (writeProto [] 1 j d).1.isOk = true ∧
    d.file j.inFile = some (c! "package type.b; message M { }") ∧
    j = { inFile := c! "x.proto", outFile := c! "x.rs" } ∧
    (writeProto [] 1 j d).2.file (c! "mod.rs") = some t ∧ c! "pub mod type;" <:+: t := by
  refine ⟨(disk [(c! "x.proto", c! "package type.b; message M { }")] []), { inFile := c! "x.proto", outFile := c! "x.rs" },
    ((writeProto [] 1 { inFile := c! "x.proto", outFile := c! "x.rs" } (disk [(c! "x.proto", c! "package type.b; message M { }")] [])).2.file (c! "mod.rs")).getD [],
    by decide +kernel, by decide +kernel, rfl, by decide +kernel, by decide +kernel⟩

/-- A file whose name starts with a digit. -/
theorem C103_refuted_file : ∃ (d : Disk) (j : Job) (t : Str), (writeProto [] 1 j d).1.isOk = true ∧
    d.file j.inFile = some (c! "message M { }") ∧
    j = { inFile := c! "x.proto", outFile := c! "2x.rs" } ∧
    (writeProto [] 1 j d).2.file (c! "mod.rs") = some t ∧ c! "pub mod 2x;" <:+: t := by
  refine ⟨(disk [(c! "x.proto", c! "message M { }")] []), { inFile := c! "x.proto", outFile := c! "2x.rs" },
    ((writeProto [] 1 { inFile := c! "x.proto", outFile := c! "2x.rs" } (disk [(c! "x.proto", c! "message M { }")] [])).2.file (c! "mod.rs")).getD [],
    by decide +kernel, by decide +kernel, rfl, by decide +kernel, by decide +kernel⟩

/-- Two fields with the same name: pb-rs only looks at the numbers. -/
theorem C103_refuted_twice : ∃ (d : Disk) (j : Job) (t : Str), (writeProto [] 1 j d).1.isOk = true ∧
    d.file j.inFile = some (c! "message M { optional int32 a = 1; optional bool a = 2; }") ∧
    j = { inFile := c! "x.proto", outFile := c! "x.rs" } ∧
    (writeProto [] 1 j d).2.file (c! "x.rs") = some t ∧ c! "    pub a: Option<i32>,\n    pub a: Option<bool>," <:+: t := by
  refine ⟨(disk [(c! "x.proto", c! "message M { optional int32 a = 1; optional bool a = 2; }")] []), { inFile := c! "x.proto", outFile := c! "x.rs" },
    ((writeProto [] 1 { inFile := c! "x.proto", outFile := c! "x.rs" } (disk [(c! "x.proto", c! "message M { optional int32 a = 1; optional bool a = 2; }")] [])).2.file (c! "x.rs")).getD [],
    by decide +kernel, by decide +kernel, rfl, by decide +kernel, by decide +kernel⟩

end QP.Rust
