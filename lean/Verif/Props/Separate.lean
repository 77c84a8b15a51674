import Verif.Proofs.Separate
import Verif.Proofs.Links
set_option linter.unusedVariables false
/-!
# Files that are generated one by one (C105)
-/

namespace QP.Rust
open QP.Pbrs RunExample

section
variable {D D' : FileDescriptor}

theorem declares_any_owned {b : Bool} {n : Str} {t : FieldType} : QP.Pbrs.Declares ({ D with owned := b } : FileDescriptor) n t ↔ QP.Pbrs.Declares D n t := by
  constructor
  · intro h
    cases h with
    | message i m h1 h2 => exact .message i m h1 h2
    | nested i m k e h1 h2 h3 => exact .nested i m k e h1 h2 h3
    | top k e h1 h2 => exact .top k e h1 h2
  · intro h
    cases h with
    | message i m h1 h2 => exact .message i m h1 h2
    | nested i m k e h1 h2 h3 => exact .nested i m k e h1 h2 h3
    | top k e h1 h2 => exact .top k e h1 h2

theorem oneMeaning_owned {b : Bool} (h : OneMeaning D) : OneMeaning ({ D with owned := b } : FileDescriptor) := by
  intro n t t' h1 h2
  have := h n t t' (declares_any_owned.mp h1) (declares_any_owned.mp h2)
  cases t <;> cases t' <;> first | exact this | exact (this : False).elim

theorem notCaptured_owned {b b' : Bool} (h : NotCaptured D D') : NotCaptured ({ D with owned := b } : FileDescriptor) ({ D' with owned := b' } : FileDescriptor) := by
  intro i m hm f hf n hn c hc t ht
  obtain ⟨t', h'⟩ := h i m hm f hf n hn c hc t (declares_any_owned.mp ht)
  exact ⟨t', declares_any_owned.mpr h'⟩

theorem unresolved_of_raw {t : FieldType} (h : t.raw = true) : Unresolved t := by
  cases t
  case map k v =>
    have h := Bool.and_eq_true_iff.mp h
    exact ⟨⟨fun i e => by rw [e] at h; exact (Bool.false_ne_true h.1).elim, fun a b e => by rw [e] at h; exact (Bool.false_ne_true h.1).elim⟩,
      ⟨fun i e => by rw [e] at h; exact (Bool.false_ne_true h.2).elim, fun a b e => by rw [e] at h; exact (Bool.false_ne_true h.2).elim⟩⟩
  case message i => cases h
  all_goals trivial

theorem corresponds_printed {cfg : Config} {S : MessageIndex → MessageIndex → Prop} {E E' : FileDescriptor} (h : Corresponds cfg S E E') :
    Corresponds cfg S (E.printed cfg) (E'.printed cfg) := by
  intro i i' hs m hm
  rw [printed_get] at hm
  obtain ⟨m', hm', hh⟩ := h i i' hs m hm
  exact ⟨m', by rw [printed_get]; exact hm', hh⟩

end

section
variable {n : Nat} {j : Job} {d : Disk} {D E : FileDescriptor}

theorem compiled_sound (hr : readProtoFile d.file j.search n j.inFile = .ok D) (hf : NoNestedMaps D) (hE : j.compiled n d = some E) : IndexOk E ∧ RefsOk E := by
  obtain ⟨D', hD', hEq⟩ := compiled_compile hr hE
  obtain ⟨hI', hR', _⟩ := C65_compiled (parsed_owned j.cfg.owned (C68_parsed hr hf)) hD'
  have hI : IndexOk E := by rw [hEq]; intro i m hg; rw [printed_get] at hg; exact hI' i m hg
  have hR : RefsOk E := by rw [hEq]; intro i m hg f hf'; rw [printed_get] at hg; exact ⟨fun k hk => by rw [printed_get]; exact (hR' i m hg f hf').1 k hk, (hR' i m hg f hf').2⟩
  exact ⟨hI, hR⟩

/-- What an imported file brings is covered by the file that imports it. -/
theorem covers_imported (hr : readProtoFile d.file j.search n j.inFile = .ok D) (hp : ∀ s, Imports d.file j.search j.inFile s → AllPackaged d.file j.search s)
    {s q : Str} (hs : Imports d.file j.search j.inFile s) (hq : ImportsStar d.file j.search s q) {n' : Nat} {D' : FileDescriptor}
    (hr' : readProtoFile d.file j.search n' q = .ok D') : Covers D D' := by
  have hp' : ∀ r, Imports d.file j.search q r → AllPackaged d.file j.search r := fun r hi p r' h1 h2 => hp s hs p r' (star_trans hq (.head hi h1)) h2
  obtain ⟨hm, he⟩ := C69_sources_partial hp' hr'
  constructor
  · intro m hmm
    obtain ⟨r, hqr, E0, is, hR, m0, h0, hh⟩ := hm m hmm
    obtain ⟨m', hm', e⟩ := (complete n hp hr r E0 is (.head hs (star_trans hq hqr)) hR).1 m0 h0
    refine ⟨m', hm', e.trans ?_⟩
    rcases hh with rfl | rfl
    · rfl
    · rw [setImported_idem]
  · intro m hmm
    obtain ⟨r, hqr, E0, is, hR, m0, h0, hh⟩ := he m hmm
    obtain ⟨m', hm', e⟩ := (complete n hp hr r E0 is (.head hs (star_trans hq hqr)) hR).2 m0 h0
    refine ⟨m', hm', e.trans ?_⟩
    rcases hh with rfl | rfl <;> rfl

end

section
variable {n : Nat} {j : Job} {d : Disk} {D E : FileDescriptor} (hr : readProtoFile d.file j.search n j.inFile = .ok D) (hE : j.compiled n d = some E)
  (hp : ∀ s, Imports d.file j.search j.inFile s → AllPackaged d.file j.search s)

include hr hE hp

/-- An imported message is a message of the file that declares it. -/
theorem imported_twin {i : Nat} {is : List Nat} {t m : Message} (ht : E.messages[i]? = some t) (hi : t.imported = true) (hm : E.getMessage (i :: is) = some m) :
    ∃ s q k, Imports d.file j.search j.inFile s ∧ ImportsStar d.file j.search s q ∧
      ∀ (n' : Nat) (j' : Job) (D' E' : FileDescriptor), j'.inFile = q → j'.search = j.search → readProtoFile d.file j'.search n' j'.inFile = .ok D' → j'.compiled n' d = some E' →
        Twin D D' (i :: is) (k :: is) ∧ ∃ m', E'.getMessage (k :: is) = some m' ∧ Own E' (k :: is) ∧ m'.name = m.name ∧ m'.module = m.module := by
  obtain ⟨C, hc, rfl⟩ := compiled_compile hr hE
  have hs := (compile_shells hc).1
  rw [printed_messages] at ht
  rw [printed_get] at hm
  obtain ⟨D0, imps, ms, es', hR', h1, h2, h3, h4, _⟩ := read_own hr
  obtain ⟨text, F, r, _, hF, _, rfl⟩ := reads_parsed hR'
  have hN := Parse.readProto_named hF
  have ht0 := hs [i]
  rw [getMessage_top.mpr ht] at ht0
  obtain ⟨t0, ht0, hts⟩ := Option.map_eq_some_iff.mp ht0.symm
  have ht1 : D.messages[i]? = some t0 := getMessage_top.mp ht0
  obtain ⟨D1, imps1, hR1, _, _, hmm, _⟩ := sources_direct hp hr
  obtain ⟨rfl, rfl⟩ := reads_unique hR1 hR'
  rcases hmm t0 (List.mem_of_getElem? ht1) with h | ⟨s, q, Eq, is', himp, hstar, hR, t1, ht1', rfl⟩
  · obtain ⟨k, hk⟩ := List.mem_iff_getElem?.mp h
    have : t0.imported = false := by
      refine own_message ?_ hk
      exact hN.messages
    rw [← (shell_facts hts.symm).2.2.1, hi] at this
    cases this
  · obtain ⟨k, hk⟩ := List.mem_iff_getElem?.mp ht1'
    have hm0 := hs (i :: is)
    rw [hm] at hm0
    obtain ⟨x, hx, hsh⟩ := Option.map_eq_some_iff.mp hm0.symm
    have hxD : D.getMessage (i :: is) = some x := hx
    have hx : t1.setImported.descend is = some x := by
      have hx : (D.messages[i]?.bind fun m => m.descend is) = some x := hx
      rw [ht1] at hx
      exact hx
    obtain ⟨y, hy, rfl⟩ := setImported_descend is t1 x hx
    refine ⟨s, q, k, himp, hstar, ?_⟩
    rintro n' j' D' E' rfl hsr hr' hE'
    obtain ⟨C', hc', rfl⟩ := compiled_compile hr' hE'
    obtain ⟨D2, imps2, ms2, es2, hR2, k1, k2, _⟩ := read_own hr'
    obtain ⟨rfl, rfl⟩ := reads_unique hR hR2
    have hyD : D'.getMessage (k :: is) = some y := QP.Rust.getMessage_append k1 (by rw [FileDescriptor.getMessage, hk]; exact hy)
    have hs' := (compile_shells hc').1 (k :: is)
    have hyD2 : ({ D' with owned := j'.cfg.owned } : FileDescriptor).getMessage (k :: is) = some y := hyD
    rw [hyD2] at hs'
    obtain ⟨m', hm', hsh'⟩ := Option.map_eq_some_iff.mp hs'
    refine ⟨⟨rfl, _, y, hxD, hyD, setImported_idem y⟩, m', by rw [printed_get]; exact hm', ?_, ?_, ?_⟩
    · obtain ⟨text2, F2, r2, _, hF2, _, rfl⟩ := reads_parsed hR
      have hN2 := Parse.readProto_named hF2
      have htop : ({ D' with owned := j'.cfg.owned } : FileDescriptor).getMessage [k] = some t1 := by
        have : D'.getMessage [k] = some t1 := QP.Rust.getMessage_append k1 (getMessage_top.mpr hk)
        exact this
      have hs2 := (compile_shells hc').1 [k]
      rw [htop] at hs2
      obtain ⟨t', ht', htsh⟩ := Option.map_eq_some_iff.mp hs2
      refine ⟨k, is, t', rfl, by rw [printed_messages]; exact getMessage_top.mp ht', ?_⟩
      rw [(shell_facts htsh).2.2.1]
      refine own_message ?_ hk
      exact hN2.messages
    · rw [(shell_facts hsh.symm).1, (shell_facts hsh').1]
      cases y; rfl
    · rw [(shell_facts hsh.symm).2.1, (shell_facts hsh').2.1]
      cases y; rfl

/-- **C105.** A file and the files that it imports are generated one by one, with the same options; all imported files have packages and
the same `syntax`. If every full name is declared once, and no name that is used in an imported file can mean something in the importing
file, then for every imported message the importing file writes `<'a>` behind the name of the struct if and only if the struct is declared
with `<'a>` in the file that is generated for it. -/
theorem C105_lifetime_partial (hf : NoNestedMaps D) (hc : j.cfg.dontUseCow = false) (hP : PackedSane E) (hU : OneMeaning D)
    {i : Nat} {is : List Nat} {t m : Message} (ht : E.messages[i]? = some t) (hi : t.imported = true) (hm : E.getMessage (i :: is) = some m) :
    ∃ s q k, Imports d.file j.search j.inFile s ∧ ImportsStar d.file j.search s q ∧
      ∀ (n' : Nat) (j' : Job) (D' E' : FileDescriptor), j'.inFile = q → j'.search = j.search → j'.cfg = j.cfg → readProtoFile d.file j'.search n' j'.inFile = .ok D' →
        NoNestedMaps D' → j'.compiled n' d = some E' → PackedSane E' → D'.syntax_ = D.syntax_ → NotCaptured D D' →
        ∃ m', E'.getMessage (k :: is) = some m' ∧ Own E' (k :: is) ∧ m'.name = m.name ∧ m'.module = m.module ∧ lifetime E j.cfg m = lifetime E' j'.cfg m' := by
  obtain ⟨s, q, k, hs, hq, hh⟩ := imported_twin hr hE hp ht hi hm
  refine ⟨s, q, k, hs, hq, ?_⟩
  intro n' j' D' E' hjq hjs hcfg hr' hf' hE' hP' hsy hN
  obtain ⟨hT, m', hm', ho, h1, h2⟩ := hh n' j' D' E' hjq hjs hr' hE'
  refine ⟨m', hm', ho, h1, h2, ?_⟩
  have hC : Covers D D' := covers_imported hr hp hs hq (by rw [← hjs, ← hjq]; exact hr')
  obtain ⟨hI, hR⟩ := compiled_sound hr hf hE
  obtain ⟨hI', hR'⟩ := compiled_sound hr' hf' hE'
  obtain ⟨C, hcp, hCe⟩ := compiled_compile hr hE
  obtain ⟨C', hcp', hCe'⟩ := compiled_compile hr' hE'
  rw [hcfg] at hcp' hCe' ⊢
  have hC1 : Covers ({ D with owned := j.cfg.owned } : FileDescriptor) ({ D' with owned := j.cfg.owned } : FileDescriptor) := ⟨hC.messages, hC.enums⟩
  have hraw := (C68_parsed hr hf).raw
  obtain ⟨c1, c2⟩ := compile_corresponds hcp hcp' hC1 (oneMeaning_owned hU) (notCaptured_owned hN) hsy.symm
    (fun i m hm f hf => unresolved_of_raw (hraw i m hm f hf))
  have c1 := corresponds_printed c1
  have c2 := corresponds_printed c2
  rw [← hCe, ← hCe'] at c1 c2
  have hT1 : Twin ({ D with owned := j.cfg.owned } : FileDescriptor) ({ D' with owned := j.cfg.owned } : FileDescriptor) (i :: is) (k :: is) := hT
  have e1 : m.index = i :: is := hI _ _ hm
  have e2 : m'.index = k :: is := hI' _ _ hm'
  unfold lifetime
  rw [e1, e2]
  have b1 := C51_struct_partial hc hI hR hP (i :: is)
  have b2 := C51_struct_partial (cfg := j.cfg) hc hI' hR' hP' (k :: is)
  have key : structDeclares E j.cfg (i :: is) = some true ↔ structDeclares E' j.cfg (k :: is) = some true := by
    rw [b1, b2]
    exact ⟨fun h => c1.borrows hT1 h, fun h => c2.borrows hT1 h⟩
  revert key
  generalize structDeclares E j.cfg (i :: is) = a
  generalize structDeclares E' j.cfg (k :: is) = b
  intro key
  rcases a with _ | _ | _ <;> rcases b with _ | _ | _ <;> first | rfl | exact absurd (key.mp rfl) (by decide) | exact absurd (key.mpr rfl) (by decide)

end

/-! ## Three files -/

/-- All declarations. -/
def declared (D : FileDescriptor) : List (Str × FieldType) :=
  ((Message.preorderAll [] 0 D.messages).flatMap fun p => (p.2.fullName, .message p.1) :: p.2.enums.zipIdx.map fun e => (e.1.nestedName, .enum ⟨p.1, e.2⟩)) ++
    D.enums.zipIdx.map fun e => (e.1.fullName, .enum ⟨[], e.2⟩)

theorem mem_declared {D : FileDescriptor} {n : Str} {t : FieldType} : (n, t) ∈ declared D ↔ QP.Pbrs.Declares D n t := by
  unfold declared
  simp only [List.mem_append, List.mem_flatMap, List.mem_cons, List.mem_map, Prod.mk.injEq]
  constructor
  · rintro (⟨⟨i, m⟩, hm, ⟨rfl, rfl⟩ | ⟨⟨e, k⟩, he, rfl, rfl⟩⟩ | ⟨⟨e, k⟩, he, rfl, rfl⟩)
    · exact .message i m ((mem_preorder_file D _ _).mp hm) rfl
    · exact .nested i m k e ((mem_preorder_file D _ _).mp hm) (List.mem_zipIdx_iff_getElem?.mp he) rfl
    · exact .top k e (List.mem_zipIdx_iff_getElem?.mp he) rfl
  · intro h
    cases h with
    | message i m h1 h2 => exact Or.inl ⟨(i, m), (mem_preorder_file D _ _).mpr h1, Or.inl ⟨h2.symm, rfl⟩⟩
    | nested i m k e h1 h2 h3 => exact Or.inl ⟨(i, m), (mem_preorder_file D _ _).mpr h1, Or.inr ⟨(e, k), List.mem_zipIdx_iff_getElem?.mpr h2, h3, rfl⟩⟩
    | top k e h1 h2 => exact Or.inr ⟨(e, k), List.mem_zipIdx_iff_getElem?.mpr h1, h2, rfl⟩

theorem oneMeaning_of {D : FileDescriptor} (h : ((declared D).map (·.1)).Nodup) : OneMeaning D := by
  intro n t t' h1 h2
  have a := mem_declared.mpr h1
  have b := mem_declared.mpr h2
  have e : (n, t) = (n, t') := by
    obtain ⟨x, hx⟩ := List.getElem?_of_mem a
    obtain ⟨y, hy⟩ := List.getElem?_of_mem b
    have lx : x < ((declared D).map (·.1)).length := by rw [List.length_map]; exact (List.getElem?_eq_some_iff.mp hx).1
    have : x = y := (List.getElem?_inj lx h).mp (by simp only [List.getElem?_map, hx, hy, Option.map_some])
    subst this
    exact Option.some.inj (hx.symm.trans hy)
  cases e
  cases h1 with
  | message i m h1 _ => exact ⟨rfl, m, m, h1, h1, rfl⟩
  | nested => trivial
  | top => trivial

/-- The type names in a type. -/
def usedIn : FieldType → List Str
  | .messageOrEnum n => [n]
  | .map k v => (match k with | .messageOrEnum n => [n] | _ => []) ++ match v with | .messageOrEnum n => [n] | _ => []
  | _ => []

theorem mem_usedIn {t : FieldType} {n : Str} (h : t.uses n) : n ∈ usedIn t := by
  rcases h with rfl | ⟨k, v, rfl, rfl | rfl⟩ <;> simp [usedIn]

theorem notCaptured_of {D D' : FileDescriptor} (h : ((Message.preorderAll [] 0 D'.messages).all fun p => p.2.allFields.all fun f => (usedIn f.typ).all fun n =>
    (candidates p.2 n).all fun c => !((declared D).map (·.1)).contains c || ((declared D').map (·.1)).contains c) = true) : NotCaptured D D' := by
  intro i m hm f hf n hn c hc t ht
  have := List.all_eq_true.mp (List.all_eq_true.mp (List.all_eq_true.mp (List.all_eq_true.mp h _ ((mem_preorder_file D' _ _).mpr hm)) f hf) n (mem_usedIn hn)) c hc
  have h1 : ((declared D).map (·.1)).contains c = true := List.contains_iff_mem.mpr (List.mem_map.mpr ⟨(c, t), mem_declared.mpr ht, rfl⟩)
  rw [h1] at this
  obtain ⟨⟨c', t'⟩, h3, rfl⟩ := List.mem_map.mp (List.contains_iff_mem.mp (show ((declared D').map (·.1)).contains c = true from this))
  exact ⟨t', mem_declared.mp h3⟩

/-- `a.proto` imports `b.proto`, and that imports `c.proto`. -/
def sepA : Str := c! "package a; import \"b.proto\"; message A { optional b.M m = 1; optional b.K k = 2; }"
def sepB : Str := c! "package b; import \"c.proto\"; message M { optional c.N n = 1; optional K k = 2; } message K { optional F f = 1; enum F { X = 0; } message I { map<int32, M> m = 1; } }"
def sepC : Str := c! "package c; message N { optional string s = 1; }"
def sepDisk : Disk := disk [(c! "a.proto", sepA), (c! "b.proto", sepB), (c! "c.proto", sepC)] []
def sepJob (x : Str) : Job := { inFile := x, outFile := c! "x.rs", search := [c! "."] }

def flatB (D : FileDescriptor) : Bool := (Message.preorderAll [] 0 D.messages).all fun p => p.2.allFields.all fun f => f.typ.flat
def packedB (E : FileDescriptor) : Bool := (Message.preorderAll [] 0 E.messages).all fun p => p.2.allFields.all fun f =>
  decide (f.packed = some true → f.frequency.isRepeated = true ∧ f.typ ≠ .string_ ∧ f.typ ≠ .bytes_)

theorem flat_of {D : FileDescriptor} (h : flatB D = true) : NoNestedMaps D := fun i m hm f hf =>
  List.all_eq_true.mp (List.all_eq_true.mp h _ ((mem_preorder_file D _ _).mpr hm)) f hf

theorem packed_of {E : FileDescriptor} (h : packedB E = true) : PackedSane E := fun i m hm f hf hp =>
  (of_decide_eq_true (List.all_eq_true.mp (List.all_eq_true.mp h _ ((mem_preorder_file E _ _).mpr hm)) f hf)) hp

theorem sep_packaged {p : Str} {D : FileDescriptor} {imps : List Str} (h : Reads sepDisk.file p D imps) : D.package ≠ [] := by
  obtain ⟨text, ht, hp⟩ := h
  have h1 := lookup_mem ht
  simp only [List.mem_cons, Prod.mk.injEq, List.not_mem_nil, or_false] at h1
  have key : ∀ (p text : Str), (match parseFile p text with | .ok (D, _) => decide (D.package ≠ []) | _ => true) = true → ∀ (D : FileDescriptor) (imps : List Str), parseFile p text = .ok (D, imps) → D.package ≠ [] := by
    intro p text h D imps hp
    rw [hp] at h
    exact of_decide_eq_true h
  rcases h1 with ⟨rfl, rfl⟩ | ⟨rfl, rfl⟩ | ⟨rfl, rfl⟩
  · exact key _ _ (by decide +kernel) _ _ hp
  · exact key _ _ (by decide +kernel) _ _ hp
  · exact key _ _ (by decide +kernel) _ _ hp

set_option maxRecDepth 100000 in
theorem sep_checked : (match readProtoFile sepDisk.file [c! "."] 3 (c! "a.proto"), (sepJob (c! "a.proto")).compiled 3 sepDisk,
      readProtoFile sepDisk.file [c! "."] 2 (c! "b.proto"), (sepJob (c! "b.proto")).compiled 2 sepDisk with
    | .ok D, some E, .ok D', some E' => flatB D && packedB E && flatB D' && packedB E' && decide (D'.syntax_ = D.syntax_) && decide ((declared D).map (·.1)).Nodup &&
      ((Message.preorderAll [] 0 D'.messages).all fun p => p.2.allFields.all fun f => (usedIn f.typ).all fun n =>
        (candidates p.2 n).all fun c => !((declared D).map (·.1)).contains c || ((declared D').map (·.1)).contains c) &&
      decide ((Message.preorderAll [] 0 E.messages).map (fun p => (p.1, p.2.name, p.2.imported, lifetime E {} p.2)) =
        [([0], c! "A", false, true), ([1], c! "M", true, true), ([2], c! "K", true, false), ([2, 0], c! "I", true, true), ([3], c! "N", true, true)]) &&
      decide ((Message.preorderAll [] 0 E'.messages).map (fun p => (p.1, p.2.name, p.2.imported, lifetime E' {} p.2)) =
        [([0], c! "M", false, true), ([1], c! "K", false, false), ([1, 0], c! "I", false, true), ([2], c! "N", true, true)])
    | _, _, _, _ => false) = true := by decide +kernel

/-- The hypotheses of C105 are met, for structs with and without a lifetime. -/
theorem C105_example : ∃ D E D' E', readProtoFile sepDisk.file (sepJob (c! "a.proto")).search 3 (c! "a.proto") = .ok D ∧ (sepJob (c! "a.proto")).compiled 3 sepDisk = some E ∧
    (∀ s, Imports sepDisk.file (sepJob (c! "a.proto")).search (c! "a.proto") s → AllPackaged sepDisk.file (sepJob (c! "a.proto")).search s) ∧
    NoNestedMaps D ∧ PackedSane E ∧ OneMeaning D ∧ readProtoFile sepDisk.file (sepJob (c! "b.proto")).search 2 (c! "b.proto") = .ok D' ∧
    (sepJob (c! "b.proto")).compiled 2 sepDisk = some E' ∧ NoNestedMaps D' ∧ PackedSane E' ∧ D'.syntax_ = D.syntax_ ∧ NotCaptured D D' ∧
    (Message.preorderAll [] 0 E.messages).map (fun p => (p.1, p.2.name, p.2.imported, lifetime E {} p.2)) =
        [([0], c! "A", false, true), ([1], c! "M", true, true), ([2], c! "K", true, false), ([2, 0], c! "I", true, true), ([3], c! "N", true, true)] ∧
    (Message.preorderAll [] 0 E'.messages).map (fun p => (p.1, p.2.name, p.2.imported, lifetime E' {} p.2)) =
        [([0], c! "M", false, true), ([1], c! "K", false, false), ([1, 0], c! "I", false, true), ([2], c! "N", true, true)] := by
  have h := sep_checked
  split at h
  · rename_i D E D' E' hr hE hr' hE'
    simp only [Bool.and_eq_true, decide_eq_true_eq] at h
    obtain ⟨⟨⟨⟨⟨⟨⟨⟨h1, h2⟩, h3⟩, h4⟩, h5⟩, h6⟩, h7⟩, h8⟩, h9⟩ := h
    exact ⟨D, E, D', E', hr, hE, fun s _ p r _ _ D imps hR => sep_packaged hR, flat_of h1, packed_of h2, oneMeaning_of h6, hr', hE', flat_of h3, packed_of h4, h5, notCaptured_of h7, h8, h9⟩
  · cases h

/-- A file with `syntax = "proto3"` imports one without: it takes the repeated field of the other file to be packed, and writes `b::M<'a>`, but
the struct has no parameter. -/
theorem C105_refuted_syntax : ∃ (d : Disk) (j j' : Job) (t t' : Str), d.file (c! "a.proto") = some (c! "syntax = \"proto3\"; package a; import \"b.proto\"; message A { b.M m = 1; }") ∧ d.file (c! "b.proto") = some (c! "package b; message M { repeated fixed32 xs = 1; }") ∧
    j = { inFile := c! "a.proto", outFile := c! "x.rs", search := [c! "."] } ∧
    j' = { inFile := c! "b.proto", outFile := c! "x.rs", search := [c! "."] } ∧
    (writeProto [] 2 j d).1.isOk = true ∧ (writeProto [] 2 j' d).1.isOk = true ∧
    (writeProto [] 2 j d).2.file (c! "a.rs") = some t ∧ (writeProto [] 2 j' d).2.file (c! "b.rs") = some t' ∧
    c! "pub m: b::M<'a>," <:+: t ∧ c! "pub struct M {" <:+: t' := by
  refine ⟨(disk [(c! "a.proto", c! "syntax = \"proto3\"; package a; import \"b.proto\"; message A { b.M m = 1; }"), (c! "b.proto", c! "package b; message M { repeated fixed32 xs = 1; }")] []), { inFile := c! "a.proto", outFile := c! "x.rs", search := [c! "."] }, { inFile := c! "b.proto", outFile := c! "x.rs", search := [c! "."] },
    ((writeProto [] 2 { inFile := c! "a.proto", outFile := c! "x.rs", search := [c! "."] } (disk [(c! "a.proto", c! "syntax = \"proto3\"; package a; import \"b.proto\"; message A { b.M m = 1; }"), (c! "b.proto", c! "package b; message M { repeated fixed32 xs = 1; }")] [])).2.file (c! "a.rs")).getD [],
    ((writeProto [] 2 { inFile := c! "b.proto", outFile := c! "x.rs", search := [c! "."] } (disk [(c! "a.proto", c! "syntax = \"proto3\"; package a; import \"b.proto\"; message A { b.M m = 1; }"), (c! "b.proto", c! "package b; message M { repeated fixed32 xs = 1; }")] [])).2.file (c! "b.rs")).getD [],
    by decide +kernel, by decide +kernel, rfl, rfl, by decide +kernel, by decide +kernel, by decide +kernel, by decide +kernel, by decide +kernel, by decide +kernel⟩

/-- The other way round the parameter is missing. -/
theorem C105_refuted_reverse : ∃ (d : Disk) (j j' : Job) (t t' : Str), d.file (c! "a.proto") = some (c! "package a; import \"b.proto\"; message A { optional b.M m = 1; }") ∧ d.file (c! "b.proto") = some (c! "syntax = \"proto3\"; package b; message M { repeated fixed32 xs = 1; }") ∧
    j = { inFile := c! "a.proto", outFile := c! "x.rs", search := [c! "."] } ∧
    j' = { inFile := c! "b.proto", outFile := c! "x.rs", search := [c! "."] } ∧
    (writeProto [] 2 j d).1.isOk = true ∧ (writeProto [] 2 j' d).1.isOk = true ∧
    (writeProto [] 2 j d).2.file (c! "a.rs") = some t ∧ (writeProto [] 2 j' d).2.file (c! "b.rs") = some t' ∧
    c! "pub m: Option<b::M>," <:+: t ∧ c! "pub struct M<'a> {" <:+: t' := by
  refine ⟨(disk [(c! "a.proto", c! "package a; import \"b.proto\"; message A { optional b.M m = 1; }"), (c! "b.proto", c! "syntax = \"proto3\"; package b; message M { repeated fixed32 xs = 1; }")] []), { inFile := c! "a.proto", outFile := c! "x.rs", search := [c! "."] }, { inFile := c! "b.proto", outFile := c! "x.rs", search := [c! "."] },
    ((writeProto [] 2 { inFile := c! "a.proto", outFile := c! "x.rs", search := [c! "."] } (disk [(c! "a.proto", c! "package a; import \"b.proto\"; message A { optional b.M m = 1; }"), (c! "b.proto", c! "syntax = \"proto3\"; package b; message M { repeated fixed32 xs = 1; }")] [])).2.file (c! "a.rs")).getD [],
    ((writeProto [] 2 { inFile := c! "b.proto", outFile := c! "x.rs", search := [c! "."] } (disk [(c! "a.proto", c! "package a; import \"b.proto\"; message A { optional b.M m = 1; }"), (c! "b.proto", c! "syntax = \"proto3\"; package b; message M { repeated fixed32 xs = 1; }")] [])).2.file (c! "b.rs")).getD [],
    by decide +kernel, by decide +kernel, rfl, rfl, by decide +kernel, by decide +kernel, by decide +kernel, by decide +kernel, by decide +kernel, by decide +kernel⟩

/-- The name `c.N` in `b.proto` means the message of `c.proto`; in the file that imports `b.proto` it is taken for `b.c.N`. -/
theorem C105_refuted_captured : ∃ (d : Disk) (j j' : Job) (t t' : Str), d.file (c! "a.proto") = some (c! "package b.c; import \"b.proto\"; message N { optional int32 x = 1; } message A { optional M m = 1; }") ∧ d.file (c! "b.proto") = some (c! "package b; import \"c.proto\"; message M { optional c.N n = 1; }") ∧ d.file (c! "c.proto") = some (c! "package c; message N { optional string s = 1; }") ∧
    j = { inFile := c! "a.proto", outFile := c! "x.rs", search := [c! "."] } ∧
    j' = { inFile := c! "b.proto", outFile := c! "x.rs", search := [c! "."] } ∧
    (writeProto [] 3 j d).1.isOk = true ∧ (writeProto [] 3 j' d).1.isOk = true ∧
    (writeProto [] 3 j d).2.file (c! "b/c.rs") = some t ∧ (writeProto [] 3 j' d).2.file (c! "b.rs") = some t' ∧
    c! "pub m: Option<b::M>," <:+: t ∧ c! "pub struct M<'a> {" <:+: t' := by
  refine ⟨(disk [(c! "a.proto", c! "package b.c; import \"b.proto\"; message N { optional int32 x = 1; } message A { optional M m = 1; }"), (c! "b.proto", c! "package b; import \"c.proto\"; message M { optional c.N n = 1; }"), (c! "c.proto", c! "package c; message N { optional string s = 1; }")] []), { inFile := c! "a.proto", outFile := c! "x.rs", search := [c! "."] }, { inFile := c! "b.proto", outFile := c! "x.rs", search := [c! "."] },
    ((writeProto [] 3 { inFile := c! "a.proto", outFile := c! "x.rs", search := [c! "."] } (disk [(c! "a.proto", c! "package b.c; import \"b.proto\"; message N { optional int32 x = 1; } message A { optional M m = 1; }"), (c! "b.proto", c! "package b; import \"c.proto\"; message M { optional c.N n = 1; }"), (c! "c.proto", c! "package c; message N { optional string s = 1; }")] [])).2.file (c! "b/c.rs")).getD [],
    ((writeProto [] 3 { inFile := c! "b.proto", outFile := c! "x.rs", search := [c! "."] } (disk [(c! "a.proto", c! "package b.c; import \"b.proto\"; message N { optional int32 x = 1; } message A { optional M m = 1; }"), (c! "b.proto", c! "package b; import \"c.proto\"; message M { optional c.N n = 1; }"), (c! "c.proto", c! "package c; message N { optional string s = 1; }")] [])).2.file (c! "b.rs")).getD [],
    by decide +kernel, by decide +kernel, by decide +kernel, rfl, rfl, by decide +kernel, by decide +kernel, by decide +kernel, by decide +kernel, by decide +kernel, by decide +kernel⟩

end QP.Rust
