import Verif.Props.Paths
import Mathlib.Data.List.Infix
set_option linter.unusedVariables false
/-!
# Two files that meet the conditions of C89, and files for which the paths are wrong
-/

namespace QP.Rust
open QP.Pbrs RunExample

/-! ## Checking -/

mutual
/-- No name twice, in this module or below. -/
def Entry.cleanB : Entry → Bool
  | .mod_ _ es => decide (names es).Nodup && Entry.cleanAllB es
  | _ => true
def Entry.cleanAllB : List Entry → Bool
  | [] => true
  | e :: es => e.cleanB && Entry.cleanAllB es
end

theorem clean_of {es : List Entry} (h1 : (names es).Nodup) (h2 : Entry.cleanAllB es = true) : Clean es := by
  have all : ∀ es : List Entry, Entry.cleanAllB es = true → ∀ e ∈ es, e.cleanB = true := by
    intro es
    induction es with
    | nil => intro _ _ h; cases h
    | cons a es ih =>
      intro h e he
      simp only [Entry.cleanAllB, Bool.and_eq_true] at h
      rcases List.mem_cons.mp he with rfl | he
      · exact h.1
      · exact ih h.2 e he
  intro p
  induction p generalizing es with
  | nil => intro es' h; cases h; exact h1
  | cons x p ih =>
    intro es' h
    rw [inside] at h
    obtain ⟨ei, hf, h⟩ := Option.bind_eq_some_iff.mp h
    have := all es h2 _ (findSome_mod hf)
    simp only [Entry.cleanB, Bool.and_eq_true, decide_eq_true_eq] at this
    exact ih this.1 this.2 es' h

/-- Is the first name of a path hidden? -/
def unhiddenB (es : List Entry) (leadsOut : Bool) (q path : Path) : Bool :=
  q.inits.all fun r => (r.isEmpty && !leadsOut) || match inside es r, path.head? with | some es', some x => !(names es').contains x | _, _ => true

theorem unhidden_of {es : List Entry} {b : Bool} {P : Prop} (hP : P → b = true) {q path : Path} (h : unhiddenB es b q path = true) : Unhidden es P q path := by
  intro x hx r es' hr hP' hi hm
  have := List.all_eq_true.mp h r ((List.mem_inits r q).mpr hr)
  rw [hi, show path.head? = some x from hx] at this
  simp only [Bool.or_eq_true, Bool.and_eq_true, Bool.not_eq_true', List.isEmpty_iff] at this
  rcases this with ⟨h1, h2⟩ | h1
  · rw [hP (hP' h1)] at h2; cases h2
  · have h3 : (names es').contains x = true := List.contains_iff_mem.mpr hm
    rw [h1] at h3; cases h3

theorem kept_of {D : FileDescriptor} (h : ((Message.preorderAll [] 0 D.messages).all fun p => decide (sanitizeKeyword p.2.name = p.2.name)) = true) : NamesKept D := by
  intro idx m hm _
  simpa using List.all_eq_true.mp h _ ((mem_preorder_file D _ _).mpr hm)

/-! ## Two files -/

namespace PathsExample

def textA : Str := c! "package a; import \"b.proto\"; message M { optional b.c.N n = 1; message P { optional E e = 1; } enum E { X = 0; } oneof o { P p = 2; M m = 3; b.c.N.F f = 4; b.c.G g = 5; } }"
def textB : Str := c! "package b.c; message N { enum F { Y = 0; } } enum G { Z = 0; }"
def before : Disk := disk [(c! "a.proto", textA), (c! "b.proto", textB)] []
def jobA : Job := { inFile := c! "a.proto", outFile := c! "a.rs", search := [c! "."] }
def jobB : Job := { inFile := c! "b.proto", outFile := c! "b.rs", search := [c! "."] }


/-- The code of a file. -/
def entriesOf (n : Nat) (j : Job) : Option (List Entry) :=
  (j.compiled n before).bind fun E => fileEntries E j.cfg (splitSlash j.inFile).2 0

/-- The crate: `a`, and `c` in `b`. -/
def crate : List Entry := [.mod_ (c! "a") ((entriesOf 2 jobA).getD []), .mod_ (c! "b") [.mod_ (c! "c") ((entriesOf 1 jobB).getD [])]]

/-- Everything that can be checked by evaluating. -/
def checks : Bool :=
  match Parse.readProto textA, Parse.readProto textB, readProtoFile before.file jobA.search 2 jobA.inFile, readProtoFile before.file jobB.search 1 jobB.inFile,
    jobA.compiled 2 before, jobB.compiled 1 before, entriesOf 2 jobA, entriesOf 1 jobB with
  | .ok FA _, .ok FB _, .ok _, .ok _, some A, some B, some ea, some eb =>
    ((Message.preorderAll [] 0 FA.desc.messages).all fun p => decide (sanitizeKeyword p.2.name = p.2.name)) &&
    ((Message.preorderAll [] 0 FB.desc.messages).all fun p => decide (sanitizeKeyword p.2.name = p.2.name)) &&
    decide (FA.desc.package = c! "a" ∧ FB.desc.package = c! "b.c" ∧ A.package = c! "a" ∧ B.package = c! "b.c" ∧ FA.imports = [c! "b.proto"] ∧ FB.imports = []) &&
    decide (names ea).Nodup && Entry.cleanAllB ea && decide (names eb).Nodup && Entry.cleanAllB eb &&
    decide ((Message.preorderAll [] 0 A.messages).map (fun p => (p.1, p.2.name, messagePath A p.2, p.2.imported)) =
      [([0], c! "M", [c! "a", c! "M"], false), ([0, 0], c! "P", [c! "a", c! "mod_M", c! "P"], false), ([1], c! "N", [c! "b", c! "c", c! "N"], true)]) &&
    decide (inner A [0] = [c! "mod_M"]) && decide (((A.getMessage [0]).map fun m => m.oneofs.length) = some 1) &&
    unhiddenB ea true [c! "mod_M"] [c! "a"] && unhiddenB ea true [c! "mod_M"] [c! "b"]
  | _, _, _, _, _, _, _, _ => false

theorem checked : checks = true := by decide +kernel

/-- The files that are there. -/
theorem file_cases {p t : Str} (h : before.file p = some t) : (p = c! "a.proto" ∧ t = textA) ∨ (p = c! "b.proto" ∧ t = textB) := by
  have := lookup_mem h
  simp only [List.mem_cons, Prod.mk.injEq, List.not_mem_nil, or_false] at this
  exact this

theorem C89_example : ∃ A ea, jobA.compiled 2 before = some A ∧ inside crate [c! "a"] = some ea ∧
    (∃ m s, A.getMessage [0, 0] = some m ∧ m.name = c! "P" ∧ structDef A {} m = some s ∧
      Denotes crate [c! "a", c! "mod_M"] [c! "a", c! "mod_M", c! "P"] (structEntry A {} m s)) ∧
    (∃ B eb cfg' k m s, Linked before crate [] (c! "b.proto") cfg' B eb ∧ B.getMessage [k] = some m ∧ m.name = c! "N" ∧
      structDef B cfg' m = some s ∧ Denotes crate [c! "a", c! "mod_M"] [c! "b", c! "c", c! "N"] (structEntry B cfg' m s)) := by
  have hc := checked
  unfold checks at hc
  split at hc
  case h_2 => cases hc
  rename_i FA ra FB rb DA DB A B ea eb hFA hFB hrA hrB hA hB hea heb
  simp only [Bool.and_eq_true, decide_eq_true_eq] at hc
  obtain ⟨⟨⟨⟨⟨⟨⟨⟨⟨⟨⟨kA, kB⟩, pFA, pFB, pA, pB, iA, iB⟩, nA⟩, cA⟩, nB⟩, cB⟩, hall⟩, hin⟩, hone⟩, hu1⟩, hu2⟩ := hc
  have hcrate : crate = [.mod_ (c! "a") ea, .mod_ (c! "b") [.mod_ (c! "c") eb]] := by unfold crate; rw [hea, heb]; rfl
  have heA : fileEntries A jobA.cfg (splitSlash jobA.inFile).2 0 = some ea := by unfold entriesOf at hea; rw [hA] at hea; exact hea
  have heB : fileEntries B jobB.cfg (splitSlash jobB.inFile).2 0 = some eb := by unfold entriesOf at heb; rw [hB] at heb; exact heb
  have inA : inside crate [c! "a"] = some ea := by rw [hcrate]; rfl
  have inB : inside crate [c! "b", c! "c"] = some eb := by rw [hcrate]; rfl
  have hclA := clean_of nA cA
  -- the messages
  have hget : ∀ (idx : MessageIndex) (x : Str × Path × Bool), (idx, x) ∈ [(([0] : MessageIndex), c! "M", ([c! "a", c! "M"] : Path), false),
      ([0, 0], c! "P", [c! "a", c! "mod_M", c! "P"], false), ([1], c! "N", [c! "b", c! "c", c! "N"], true)] →
      ∃ m, A.getMessage idx = some m ∧ m.name = x.1 ∧ messagePath A m = x.2.1 ∧ m.imported = x.2.2 := by
    intro idx x hx
    rw [← hall] at hx
    obtain ⟨⟨i, m⟩, hm, he⟩ := List.mem_map.mp hx
    cases he
    exact ⟨m, (mem_preorder_file A _ _).mp hm, rfl, rfl, rfl⟩
  obtain ⟨mM, hmM, nM, pM, iM⟩ := hget _ _ List.mem_cons_self
  obtain ⟨mP, hmP, nP, pP, iP⟩ := hget _ _ (List.mem_cons_of_mem _ List.mem_cons_self)
  obtain ⟨mN, hmN, nN, pN, iN⟩ := hget _ _ (List.mem_cons_of_mem _ (List.mem_cons_of_mem _ List.mem_cons_self))
  have htM := getMessage_top.mp hmM
  have htN := getMessage_top.mp hmN
  have oM : Own A [0] := ⟨0, [], mM, rfl, htM, iM⟩
  have oP : Own A [0, 0] := ⟨0, [0], mM, rfl, htM, iM⟩
  have hspot : Spot A [c! "mod_M"] := by
    rw [← hin]
    rw [hmM] at hone
    simp only [Option.map_some, Option.some.injEq] at hone
    obtain ⟨o, ho⟩ : ∃ o, o ∈ mM.oneofs := List.exists_mem_of_ne_nil _ (by intro h; rw [h] at hone; cases hone)
    exact Spot.oneof oM hmM ho
  have hI : Installed A (baseOf (c! "a") jobA.inFile) crate ea [] [c! "a"] :=
    ⟨inA, fun _ => ⟨by decide +kernel, by rw [pA]; decide +kernel⟩, fun h => absurd h (by rw [pA]; decide)⟩
  have hL := C89_located hrA hA (text := textA) (by decide +kernel) hFA (kept_of kA)
  rw [pFA] at hL
  -- imports
  have himp : ∀ s, Imports before.file jobA.search jobA.inFile s → s = c! "b.proto" := by
    rintro s ⟨D, imps, imp, hR, hi, b, dir, a, hs, rfl, _⟩
    obtain ⟨text, F, r, ht, hF, rfl, rfl⟩ := reads_parsed hR
    rcases file_cases ht with ⟨_, rfl⟩ | ⟨h, _⟩
    · cases hF.symm.trans hFA
      rw [iA] at hi
      cases List.mem_singleton.mp hi
      have : dir ∈ jobA.search := by rw [hs]; simp
      cases List.mem_singleton.mp this
      decide +kernel
    · exact absurd h (by decide)
  have hnone : ∀ s, ¬ Imports before.file jobA.search (c! "b.proto") s := by
    rintro s ⟨D, imps, imp, hR, hi, _⟩
    obtain ⟨text, F, r, ht, hF, rfl, rfl⟩ := reads_parsed hR
    rcases file_cases ht with ⟨h, _⟩ | ⟨_, rfl⟩
    · exact absurd h (by decide)
    · cases hF.symm.trans hFB
      rw [iB] at hi
      cases hi
  have hstar : ∀ q, ImportsStar before.file jobA.search (c! "b.proto") q → q = c! "b.proto" := by
    intro q hq
    induction hq with
    | refl => rfl
    | step _ hi ih => subst ih; exact absurd hi (hnone _)
  have hLB : Linked before crate [] (c! "b.proto") jobB.cfg B eb :=
    ⟨⟨1, jobB, DB, rfl, rfl, hrB, hB⟩, ⟨0, heB⟩, clean_of nB cB, textB, FB, rb, by decide +kernel, hFB, kept_of kB, by
      rw [pFB]; rw [show ([] : Path) ++ baseOf (c! "b.c") (c! "b.proto") = [c! "b", c! "c"] by decide +kernel]; exact inB⟩
  refine ⟨A, ea, hA, inA, ?_, ?_⟩
  · obtain ⟨s, hs, hd⟩ := C89_message_partial heA hclA hL hI oP hmP hspot (by rw [pP]; exact unhidden_of (fun _ => rfl) hu1)
    rw [pP] at hd
    exact ⟨mP, s, hmP, nP, hs, hd⟩
  · obtain ⟨s, q, cfg', E', es', k, m', st, h1, h2, h3, h4, h5, h6, h7, h8⟩ := C89_imported_partial hrA hA
      (fun s hs p r hp hi => by cases himp s hs; cases hstar p hp; exact absurd hi (hnone _)) heA hclA hI
      (fun s q hs hq => by cases himp s hs; cases hstar q hq; exact ⟨_, _, _, hLB⟩) htN iN hmN hspot (by rw [pN]; exact unhidden_of (fun _ => rfl) hu2)
    rw [pN] at h8
    cases himp s h1
    cases hstar q h2
    exact ⟨E', es', cfg', k, m', st, h3, h4, h6.trans nN, h7, h8⟩

/-- The conditions of `C88_layout` are met, too, by both files. -/
theorem C88_example : ∃ d' D E es p, writeProto [] 2 jobA before = (.ok (), d') ∧ readProtoFile before.file jobA.search 2 jobA.inFile = .ok D ∧ NoNestedMaps D ∧
    jobA.compiled 2 before = some E ∧ jobA.out 2 before = some p ∧ fileEntries E {} (c! "a.proto") 0 = some es ∧ es.length = 14 ∧
    d'.file p = some (Entry.docs es).str := by
  have h : (match writeProto [] 2 jobA before, readProtoFile before.file jobA.search 2 jobA.inFile, jobA.compiled 2 before with
    | (.ok (), _), .ok D, some E => ((Message.preorderAll [] 0 D.messages).all fun p => p.2.allFields.all fun f => f.typ.flat) &&
      ((Message.preorderAll [] 0 E.messages).all fun p => p.2.fields.all fun f => decide (f.frequency ≠ .p3optional)) &&
      decide (servicesOf ((before.file jobA.inFile).getD []) = 0) && decide ((splitSlash jobA.inFile).2 = c! "a.proto") &&
      decide ((fileEntries E {} (c! "a.proto") 0).map List.length = some 14)
    | _, _, _ => false) = true := by decide +kernel
  split at h
  · rename_i d' D E hw hr hE
    simp only [Bool.and_eq_true, decide_eq_true_eq] at h
    obtain ⟨⟨⟨⟨h1, h2⟩, h3⟩, h4⟩, h5⟩ := h
    have hf : NoNestedMaps D := fun i m hm f hf => List.all_eq_true.mp (List.all_eq_true.mp h1 _ ((mem_preorder_file D _ _).mpr hm)) f hf
    obtain ⟨p, E', es, g1, g2, g3, g4⟩ := C88_layout (j := jobA) rfl hw (Parse.oneSyntax_file (by decide +kernel))
    cases hE.symm.trans g2
    rw [h3, h4] at g3
    have g3 : fileEntries E {} (c! "a.proto") 0 = some es := g3
    rw [g3] at h5
    exact ⟨d', D, E, es, p, hw, hr, hf, hE, g1, g3, Option.some.inj h5, g4⟩
  · cases h

end PathsExample
end QP.Rust

/-! ## Paths that are wrong -/

namespace QP.Rust
open QP.Pbrs RunExample

theorem finds_prefix {crate : List Entry} {q p : Path} {x : Str} (h : Finds crate q x p) :
    p <+: q ∧ ∀ es, inside crate q = some es → x ∈ names es → p = q := by
  induction h with
  | own _ _ _ => exact ⟨List.prefix_rfl, fun _ _ _ => rfl⟩
  | glob hi hn _ _ _ ih =>
    refine ⟨ih.1.trans (List.take_prefix _ _), fun es he hx => ?_⟩
    cases hi.symm.trans he
    exact absurd hx hn

/-- Nothing is at the path, looked for in `q` and in the modules around it, down to the first that has the first name. -/
def deadB (crate : List Entry) (q path : Path) : Bool :=
  (match inside crate q, path.head? with
    | some es, some x => if (names es).contains x then [q] else q.inits
    | _, _ => q.inits).all fun p => match inside crate (p ++ path.dropLast), path.getLast? with
      | some es, some l => es.all fun e => !e.declares.contains l
      | _, _ => true

theorem dead_of {crate : List Entry} {q path : Path} (h : deadB crate q path = true) (e : Entry) : ¬ Denotes crate q path e := by
  cases path with
  | nil => exact id
  | cons x xs =>
    rintro ⟨p, hf, last, hl, es, hi, he, hx, _⟩
    obtain ⟨h1, h2⟩ := finds_prefix hf
    have hp : p ∈ (match inside crate q, (x :: xs).head? with
        | some es, some x => if (names es).contains x then [q] else q.inits
        | _, _ => q.inits) := by
      split
      · rename_i es' x' hq hx'
        cases hx'
        split
        · rename_i hc
          rw [h2 es' hq (List.contains_iff_mem.mp hc)]
          exact List.mem_singleton.mpr rfl
        · exact (List.mem_inits p q).mpr h1
      · exact (List.mem_inits p q).mpr h1
    have := List.all_eq_true.mp h p hp
    rw [hi, hl] at this
    have := List.all_eq_true.mp this e he
    have h3 : e.declares.contains last = true := List.contains_iff_mem.mpr hx
    rw [h3] at this
    cases this

/-- Compile one file and look at what was compiled and at its code. -/
def looked (cfg : Config) (text : Str) (p : FileDescriptor → List Entry → Bool) : Bool :=
  match ({ inFile := c! "x.proto", outFile := c! "x.rs", cfg := cfg } : Job).compiled 1 (disk [(c! "x.proto", text)] []) with
  | some E => match fileEntries E cfg (c! "x.proto") 0 with | some es => p E es | none => false
  | none => false

/-- Compiling the file `text` gives `E`, with the code `es`. -/
def Gives (cfg : Config) (text : Str) (E : FileDescriptor) (es : List Entry) : Prop :=
  ({ inFile := c! "x.proto", outFile := c! "x.rs", cfg := cfg } : Job).compiled 1 (disk [(c! "x.proto", text)] []) = some E ∧
    fileEntries E cfg (c! "x.proto") 0 = some es

theorem gives_of {cfg : Config} {text : Str} {p : FileDescriptor → List Entry → Bool} (h : looked cfg text p = true) :
    ∃ E es, Gives cfg text E es ∧ p E es = true := by
  unfold looked at h
  split at h
  · rename_i E hE
    split at h
    · rename_i es hes
      exact ⟨E, es, ⟨hE, hes⟩, h⟩
    · cases h
  · cases h

/-- A message `Result` (a name that pb-rs changes) in which an enum is declared: the enum is in module `mod_Result_pb`, but the path that
is used for it, in the struct of the message, is `mod_Result::Code`. There is nothing of that name. -/
theorem C89_refuted_renamed : ∃ (E : FileDescriptor) (es : List Entry) (m : Message) (e : Enumerator),
    Gives {} (c! "message Result { enum Code { A = 0; } optional Code code = 1; }") E es ∧ E.getMessage [0] = some m ∧ e ∈ m.enums ∧
    (∀ f ∈ m.fields, f.typ = .enum ⟨[0], 0⟩) ∧ ∀ x, ¬ Denotes [.mod_ (c! "x") es] [c! "x"] (enumPath E e) x := by
  obtain ⟨E, es, h, hp⟩ := gives_of (cfg := {}) (text := c! "message Result { enum Code { A = 0; } optional Code code = 1; }")
    (p := fun E es => match E.getMessage [0] with
      | some m => (m.fields.all fun f => decide (f.typ = .enum ⟨[0], 0⟩)) && match m.enums with
        | e :: _ => deadB [.mod_ (c! "x") es] [c! "x"] (enumPath E e)
        | [] => false
      | none => false) (by decide +kernel)
  split at hp
  · rename_i m hm
    rw [Bool.and_eq_true] at hp
    obtain ⟨h1, h2⟩ := hp
    split at h2
    · rename_i e _ he
      exact ⟨E, es, m, e, h, hm, by rw [he]; exact List.mem_cons_self, fun f hf => by simpa using List.all_eq_true.mp h1 f hf, dead_of h2⟩
    · cases h2
  · cases hp

/-- Package `foo` with a message `foo`: in the module `foo`, the name `foo` means the struct, so the path `foo::M` of another message means
nothing. -/
theorem C89_refuted_package : ∃ (E : FileDescriptor) (es : List Entry) (m : Message),
    Gives {} (c! "package foo; message foo { optional M m = 1; } message M { }") E es ∧ E.getMessage [1] = some m ∧ m.name = c! "M" ∧
    ∀ x, ¬ Denotes [.mod_ (c! "foo") es] [c! "foo"] (messagePath E m) x := by
  obtain ⟨E, es, h, hp⟩ := gives_of (cfg := {}) (text := c! "package foo; message foo { optional M m = 1; } message M { }")
    (p := fun E es => match E.getMessage [1] with
      | some m => decide (m.name = c! "M") && deadB [.mod_ (c! "foo") es] [c! "foo"] (messagePath E m)
      | none => false) (by decide +kernel)
  split at hp
  · rename_i m hm
    rw [Bool.and_eq_true, decide_eq_true_eq] at hp
    exact ⟨E, es, m, h, hm, hp.1, dead_of hp.2⟩
  · cases hp

/-- With `--single-mod` and a package `a.b` of two parts, paths begin with `b`; but there is no module `b`. -/
theorem C89_refuted_single : ∃ (E : FileDescriptor) (es : List Entry) (m : Message),
    Gives { singleModule := true } (c! "package a.b; message N { optional M m = 1; } message M { }") E es ∧ E.getMessage [1] = some m ∧ m.name = c! "M" ∧
    ∀ x, ¬ Denotes [.mod_ (c! "x") es] [c! "x"] (messagePath E m) x := by
  obtain ⟨E, es, h, hp⟩ := gives_of (cfg := { singleModule := true }) (text := c! "package a.b; message N { optional M m = 1; } message M { }")
    (p := fun E es => match E.getMessage [1] with
      | some m => decide (m.name = c! "M") && deadB [.mod_ (c! "x") es] [c! "x"] (messagePath E m)
      | none => false) (by decide +kernel)
  split at hp
  · rename_i m hm
    rw [Bool.and_eq_true, decide_eq_true_eq] at hp
    exact ⟨E, es, m, h, hm, hp.1, dead_of hp.2⟩
  · cases hp

/-- A package `a.type`: the file is `a/type_pb.rs`, but paths are `a::type::M`. -/
theorem C89_refuted_keyword : ∃ (E : FileDescriptor) (es : List Entry) (m : Message),
    Gives {} (c! "package a.type; message N { optional M m = 1; } message M { }") E es ∧ outPath E.package (c! "x.rs") = c! "a/type_pb.rs" ∧
    E.getMessage [1] = some m ∧ m.name = c! "M" ∧
    ∀ x, ¬ Denotes [.mod_ (c! "a") [.mod_ (c! "type_pb") es]] [c! "a", c! "type_pb"] (messagePath E m) x := by
  obtain ⟨E, es, h, hp⟩ := gives_of (cfg := {}) (text := c! "package a.type; message N { optional M m = 1; } message M { }")
    (p := fun E es => match E.getMessage [1] with
      | some m => decide (m.name = c! "M" ∧ outPath E.package (c! "x.rs") = c! "a/type_pb.rs") &&
        deadB [.mod_ (c! "a") [.mod_ (c! "type_pb") es]] [c! "a", c! "type_pb"] (messagePath E m)
      | none => false) (by decide +kernel)
  split at hp
  · rename_i m hm
    rw [Bool.and_eq_true, decide_eq_true_eq] at hp
    exact ⟨E, es, m, h, hp.1.2, hm, hp.1.1, dead_of hp.2⟩
  · cases hp

/-- Without a package, a type of the file is used by its bare name, also in a module that declares another type of that name: the field `m`
of `X.Y` is a `.M`, but its type in the code of `Y` is the struct of `X.M`. -/
theorem C89_refuted_shadowed : ∃ (E : FileDescriptor) (es : List Entry) (m m' y : Message) (s' : StructDef),
    Gives {} (c! "message M { } message X { message M { optional int32 i = 1; } message Y { optional .M m = 1; } }") E es ∧
    E.getMessage [0] = some m ∧ m.fields = [] ∧ E.getMessage [1, 0] = some m' ∧ m'.fields.length = 1 ∧ E.getMessage [1, 1] = some y ∧
    y.fields.map (·.typ) = [.message [0]] ∧ home E [1, 1] = [c! "mod_X"] ∧ structDef E {} m' = some s' ∧
    Denotes [.mod_ (c! "x") es] [c! "x", c! "mod_X"] (messagePath E m) (structEntry E {} m' s') := by
  obtain ⟨E, es, h, hp⟩ := gives_of (cfg := {}) (text := c! "message M { } message X { message M { optional int32 i = 1; } message Y { optional .M m = 1; } }")
    (p := fun E es => decide (names es).Nodup && Entry.cleanAllB es && decide (home E [1, 1] = [c! "mod_X"] ∧ home E [1, 0] = [c! "mod_X"]) &&
      decide ((E.messages.map (·.imported)) = [false, false]) &&
      match E.getMessage [0], E.getMessage [1, 0], E.getMessage [1, 1] with
      | some m, some m', some y =>
        decide (m.fields = [] ∧ m'.fields.length = 1 ∧ y.fields.map (·.typ) = [.message [0]] ∧ messagePath E m = [c! "M"] ∧ m'.name = c! "M")
      | _, _, _ => false) (by decide +kernel)
  simp only [Bool.and_eq_true, decide_eq_true_eq] at hp
  obtain ⟨⟨⟨⟨h1, h2⟩, h3, h3'⟩, h4⟩, hp⟩ := hp
  split at hp
  · rename_i m m' y hm hm' hy
    simp only [decide_eq_true_eq] at hp
    obtain ⟨k1, k2, k3, k4, k5⟩ := hp
    have hown : Own E [1, 0] := by
      have := congrArg (·[1]?) h4
      simp only [List.getElem?_map] at this
      obtain ⟨t, ht, hi⟩ := Option.map_eq_some_iff.mp this
      exact ⟨1, [0], t, rfl, ht, hi⟩
    obtain ⟨es', g1, g2, g3, _, _⟩ := own_inside h.2 (clean_of h1 h2) hown hm'
    obtain ⟨s', hs', hmem⟩ := holds_struct g2
    rw [h3'] at g1
    have hin : inside [.mod_ (c! "x") es] [c! "x", c! "mod_X"] = some es' := by
      rw [← g1]; rfl
    refine ⟨E, es, m, m', y, s', h, hm, k1, hm', k2, hy, k3, h3, hs', ?_⟩
    have hd := declared_of hin (g3 [] es' rfl) hmem (x := c! "M") (by rw [← k5]; exact List.mem_singleton.mpr rfl)
    rw [k4]
    refine ⟨_, Finds.own hin hmem (by rw [← k5]; exact List.mem_singleton.mpr rfl), c! "M", rfl, ?_⟩
    rw [show [c! "x", c! "mod_X"] ++ ([c! "M"] : Path).dropLast = [c! "x", c! "mod_X"] from rfl]
    exact hd
  · cases hp

/-- Names that the file imports: a message `MessageInfo` is declared beside the imported `MessageInfo`. -/
theorem C89_refuted_imported_name : ∃ (E : FileDescriptor) (es : List Entry),
    Gives {} (c! "message MessageInfo { optional int32 m = 1; }") E es ∧ ¬ (names es).Nodup := by
  obtain ⟨E, es, h, hp⟩ := gives_of (cfg := {}) (text := c! "message MessageInfo { optional int32 m = 1; }")
    (p := fun E es => decide (¬ (names es).Nodup)) (by decide +kernel)
  exact ⟨E, es, h, by simpa using hp⟩

/-- Names that pb-rs makes up: `OneOfx` for a oneof `x`. -/
theorem C89_refuted_oneof_name : ∃ (E : FileDescriptor) (es es' : List Entry),
    Gives {} (c! "message M { message OneOfx { } oneof x { OneOfx y = 1; } }") E es ∧ inside es [c! "mod_M"] = some es' ∧ ¬ (names es').Nodup := by
  obtain ⟨E, es, h, hp⟩ := gives_of (cfg := {}) (text := c! "message M { message OneOfx { } oneof x { OneOfx y = 1; } }")
    (p := fun E es => match inside es [c! "mod_M"] with | some es' => decide (¬ (names es').Nodup) | none => false) (by decide +kernel)
  split at hp
  · rename_i es' he
    exact ⟨E, es, es', h, he, by simpa using hp⟩
  · cases hp

/-- And `MOwned` for a message `M`, with `--owned`. -/
theorem C89_refuted_owned_name : ∃ (E : FileDescriptor) (es : List Entry),
    Gives { owned := true } (c! "message M { optional string s = 1; } message MOwned { }") E es ∧ ¬ (names es).Nodup := by
  obtain ⟨E, es, h, hp⟩ := gives_of (cfg := { owned := true }) (text := c! "message M { optional string s = 1; } message MOwned { }")
    (p := fun E es => decide (¬ (names es).Nodup)) (by decide +kernel)
  exact ⟨E, es, h, by simpa using hp⟩

end QP.Rust
