import Verif.Proofs.ImportFuel
import Verif.Props.Compile
import Verif.Props.Parser
/-!
# Properties of reading schemas from files (C68-C71)
-/

set_option linter.unusedVariables false

namespace QP.Pbrs
open Parse Grammar

/-! ## C68: from the files to the bytes and back -/

/-- What pb-rs reads from files meets the conditions that the theorems about compiling (C65) have on parsed schemas. -/
theorem C68_parsed {fs : Files} {search : List Str} {n : Nat} {file : Str} {D : FileDescriptor}
    (h : readProtoFile fs search n file = .ok D) (hf : NoNestedMaps D) : Parsed D := parsed_of_out (readProtoFile_out n h) hf

/-- A file that is a text (in the sense of `Spec/Grammar.lean`) of a schema without imports is read as that schema, with
packages and modules filled in. -/
theorem C68_read {fs : Files} {search : List Str} {n : Nat} {file s : Str} {F : File} (ht : FileText F s) (hi : F.imports = [])
    (hs : fs file = some s) : readProtoFile fs search (n + 1) file =
      .ok ({ F.desc with module := if F.desc.package.isEmpty then getFileStem file else F.desc.package } : FileDescriptor).setPackages := by
  rw [readProtoFile, hs]
  simp only [parseFile, (C54_parse ht).2, hi, fetchImports]

/-- `setPackages` and the options change nothing that the conditions of C65 mention. -/
theorem parsed_owned {D : FileDescriptor} (b : Bool) (h : Parsed D) : Parsed { D with owned := b } := by
  constructor
  · exact h.raw
  · exact h.boxed
  · exact h.map

theorem nestedPacked_owned {D : FileDescriptor} {b : Bool} (h : NestedPackedOk D) : NestedPackedOk { D with owned := b } := by
  have hd : Declares { D with owned := b } = Declares D := by
    funext n t
    refine propext ⟨fun h => ?_, fun h => ?_⟩
    · cases h with
      | message i m h1 h2 => exact .message i m h1 h2
      | nested i m k e h1 h2 h3 => exact .nested i m k e h1 h2 h3
      | top k e h1 h2 => exact .top k e h1 h2
    · cases h with
      | message i m h1 h2 => exact .message i m h1 h2
      | nested i m k e h1 h2 h3 => exact .nested i m k e h1 h2 h3
      | top k e h1 h2 => exact .top k e h1 h2
  have hr : ResolvesTo { D with owned := b } = ResolvesTo D := by
    funext m t t'
    unfold ResolvesTo ResolvesOne Means
    rw [hd]
  intro i m hi hm f hf hp t ht
  rw [hr] at ht
  exact h i m hi hm f hf hp t ht

end QP.Pbrs

namespace QP.Gen
open QP.Pbrs Spec

/-- From the files to the bytes and back: if pb-rs accepts the file `file` (and everything it imports), then every value of
every message type generated from it survives being written and read. The conditions on numbers and on packed fields are
those of C65. -/
theorem C68_roundtrip {fs : Files} {search : List Str} {path : FileDescriptor → FieldType → Str} {cfg : Config} {n : Nat}
    {file : Str} {D D' : FileDescriptor} (hr : readProtoFile fs search n file = .ok D) (hf : NoNestedMaps D) (hN : Numbered D)
    (hK : NestedPackedOk D) (h : compileFile fs search path cfg n file = .ok D') (T : Target) (hT : T.bigEndian = false)
    (const : FieldType → Str → RVal) :
    ∃ C : Ctx, C.T = T ∧ C.D = D' ∧ C.cfg = cfg ∧ C.const = const ∧ IsDefault C ∧
      ∀ n idx v, WellTyped C Plain n idx v → (writeImpl C n idx).get_size v < 2 ^ 32 →
        sizeof_len ((writeImpl C n idx).get_size v) < 2 ^ T.usizeBits →
        ∃ bytes, serialize_into_vec (writeImpl C n idx) v = .ok bytes ∧
          ∀ fuel, bytes.length ≤ fuel → ∃ v',
            deserialize_from_slice T (fromReader C fuel idx) bytes = .ok v' ∧ v'.obs = v.obs := by
  simp only [compileFile, hr] at h
  split at h
  · cases h
  · rename_i E hE
    cases h
    exact C65_roundtrip (D := { D with owned := cfg.owned }) (parsed_owned _ (C68_parsed hr hf)) ⟨hN.range, hN.distinct⟩ (nestedPacked_owned hK) hE T hT const

end QP.Gen

namespace QP.Pbrs
open Parse Grammar

namespace ImportExample

/-- `a.proto` imports `b.proto`. -/
def files (p : Str) : Option Str :=
  if p = c! "/p/a.proto" then some (c! "syntax = \"proto3\"; import \"b.proto\"; message A { repeated b.B l = 1; map<string, A> m = 2; b.E e = 3; }")
  else if p = c! "/p/b.proto" then some (c! "package b; message B { optional B next = 1; message N { required fixed32 x = 7; } } enum E { X = 0; }")
  else none

/-- All that the conditions of C68 say, as a test of all messages. -/
def good (D : FileDescriptor) : Bool :=
  (Message.preorderAll [] 0 D.messages).all fun p =>
    p.2.allFields.all (fun f => f.typ.flat && decide (0 < f.number ∧ f.number < 2 ^ 29) && decide (f.packed ≠ some true)) &&
    decide ((p.2.allFields.map (·.number)).Nodup)

theorem good_spec {D : FileDescriptor} (h : good D = true) : NoNestedMaps D ∧ Numbered D ∧ NestedPackedOk D := by
  have all := fun i m hm => List.all_eq_true.mp h (i, m) ((mem_preorder_file D i m).mpr hm)
  simp only [Bool.and_eq_true, List.all_eq_true, decide_eq_true_eq] at all
  refine ⟨fun i m hm f hf => ((all i m hm).1 f hf).1.1, ⟨fun i m hm f hf => ((all i m hm).1 f hf).1.2, fun i m hm => (all i m hm).2⟩, ?_⟩
  intro i m _ hm f hf hp
  exact absurd hp ((all i m hm).1 f hf).2

/-- The hypotheses of C68 are met by these files: three messages, one of them nested, one recursive. -/
example : ∃ D D', readProtoFile files [c! "/p"] 2 (c! "/p/a.proto") = .ok D ∧ NoNestedMaps D ∧ Numbered D ∧ NestedPackedOk D ∧
    compileFile files [c! "/p"] (fun _ _ => []) {} 2 (c! "/p/a.proto") = .ok D' ∧
    (Message.preorderAll [] 0 D.messages).map (fun p => (p.2.name, p.2.package)) =
      [(c! "A", []), (c! "B", c! "b"), (c! "N", c! "b.B")] := by
  have h : (match readProtoFile files [c! "/p"] 2 (c! "/p/a.proto"), compileFile files [c! "/p"] (fun _ _ => []) {} 2 (c! "/p/a.proto") with
    | .ok D, .ok _ => good D && decide ((Message.preorderAll [] 0 D.messages).map (fun p => (p.2.name, p.2.package)) =
      [(c! "A", []), (c! "B", c! "b"), (c! "N", c! "b.B")])
    | _, _ => false) = true := by decide +kernel
  split at h
  · rename_i D D' h1 h2
    simp only [Bool.and_eq_true, decide_eq_true_eq] at h
    obtain ⟨g1, g2, g3⟩ := good_spec h.1
    exact ⟨D, D', h1, g1, g2, g3, h2, h.2⟩
  · cases h

end ImportExample

/-! ## C69: imported declarations keep the package of the file that declares them -/

/-- C69, the part that holds: if all files that are imported by imported files have packages (those that the file itself imports need
not), then everything in the result is declared in the file or in one that it imports, and has the package and module it has there. -/
theorem C69_sources_partial {fs : Files} {search : List Str} {n : Nat} {p : Str} {D : FileDescriptor}
    (hp : ∀ s, Imports fs search p s → AllPackaged fs search s) (h : readProtoFile fs search n p = .ok D) :
    (∀ m ∈ D.messages, ∃ q, ImportsStar fs search p q ∧ DeclaredBy fs q m) ∧
    (∀ e ∈ D.enums, ∃ q, ImportsStar fs search p q ∧ EnumDeclaredBy fs q e) := by
  obtain ⟨D0, imps, hr, _, _, hm, he⟩ := sources_direct hp h
  constructor
  · intro m hmm
    rcases hm m hmm with h1 | ⟨s, r, E, is, hi, hs, hE, m0, h0, rfl⟩
    · exact ⟨p, .refl p, D0, imps, hr, m, h1, .inl rfl⟩
    · exact ⟨r, .head hi hs, E, is, hE, m0, h0, .inr rfl⟩
  · intro m hmm
    rcases he m hmm with h1 | ⟨s, r, E, is, hi, hs, hE, m0, h0, rfl⟩
    · exact ⟨p, .refl p, D0, imps, hr, m, h1, .inl rfl⟩
    · exact ⟨r, .head hi hs, E, is, hE, m0, h0, .inr rfl⟩

/-- The imports of the two files of the example. -/
theorem example_reads {p : Str} {D : FileDescriptor} {imps : List Str} (h : Reads ImportExample.files p D imps) :
    (p = c! "/p/a.proto" ∧ imps = [c! "b.proto"]) ∨ (p = c! "/p/b.proto" ∧ imps = [] ∧ D.package = c! "b") := by
  obtain ⟨t, h1, h2⟩ := h
  unfold ImportExample.files at h1
  split at h1
  · rename_i hp
    subst hp; cases h1
    have h : (match parseFile (c! "/p/a.proto") (c! "syntax = \"proto3\"; import \"b.proto\"; message A { repeated b.B l = 1; map<string, A> m = 2; b.E e = 3; }") with
      | .ok (_, imps) => imps | _ => []) = [c! "b.proto"] := by decide +kernel
    rw [h2] at h
    exact .inl ⟨rfl, h⟩
  · split at h1
    · rename_i hp
      subst hp; cases h1
      have h : (match parseFile (c! "/p/b.proto") (c! "package b; message B { optional B next = 1; message N { required fixed32 x = 7; } } enum E { X = 0; }") with
        | .ok (D, imps) => (imps, D.package) | _ => ([[]], [])) = ([], c! "b") := by decide +kernel
      rw [h2] at h
      exact .inr ⟨rfl, (Prod.mk.injEq _ _ _ _ ▸ h).1, (Prod.mk.injEq _ _ _ _ ▸ h).2⟩
    · cases h1

/-- If a file has only packages below it, so have the files that it imports. -/
theorem packaged_below {fs : Files} {search : List Str} {p : Str} (h : AllPackaged fs search p) :
    ∀ s, Imports fs search p s → AllPackaged fs search s := fun s hs _ _ hq hi => h _ _ (.head hs hq) hi

/-- The hypothesis of `C69_sources_partial` is met by the example (with `packaged_below`). -/
theorem example_packaged : AllPackaged ImportExample.files [c! "/p"] (c! "/p/a.proto") := by
  intro p r _ hi D imps hD
  obtain ⟨E, is, imp, hE, him, b, d, a, hs, rfl, _, _⟩ := hi
  rcases example_reads hE with ⟨rfl, rfl⟩ | ⟨_, rfl, _⟩
  · cases List.mem_singleton.mp him
    have hd : d = c! "/p" := by
      cases b with
      | nil => exact (List.cons.inj hs).1.symm
      | cons _ b => cases b <;> cases (List.cons.inj hs).2
    subst hd
    rcases example_reads hD with ⟨h, _⟩ | ⟨_, _, h⟩
    · exact absurd h (by decide +kernel)
    · rw [h]; decide
  · cases him

/-- C69, nothing is lost: every declaration of every file that is imported is in the result, but for its package and module. -/
theorem C69_complete {fs : Files} {search : List Str} {p q : Str} (hs : ImportsStar fs search p q) {n : Nat} {D : FileDescriptor}
    (h : readProtoFile fs search n p = .ok D) : ∃ D0 imps, Reads fs q D0 imps ∧
      (∀ m0 ∈ D0.messages, ∃ m ∈ D.messages, m.bare = m0.bare) ∧
      (∀ e0 ∈ D0.enums, ∃ e ∈ D.enums, e.name = e0.name ∧ e.fields = e0.fields) := by
  obtain ⟨k, E, hE, h1, h2⟩ := complete_star hs h
  cases k with
  | zero => cases hE
  | succ k =>
    obtain ⟨D0, imps, hr, hf⟩ := readProtoFile_inv hE
    obtain ⟨g1, g2, _⟩ := fetch_complete hf
    exact ⟨D0, imps, hr, fun m hm => h1 m (g1 m hm), fun e he => h2 e (g2 e he)⟩

/-- The files of the counterexample to C69: `a.proto` imports `b.proto`, which has package `b` and imports `c.proto`, which has
no package. -/
def filesABC (p : Str) : Option Str :=
  if p = c! "a.proto" then some (c! "import \"b.proto\"; message A { optional B b = 1; }")
  else if p = c! "b.proto" then some (c! "package b; import \"c.proto\"; message B { }")
  else if p = c! "c.proto" then some (c! "message C { }")
  else none

/-- What of a result is compared below: the name, package and module of each message. -/
def placed (r : Except ReadError FileDescriptor) : Option (List (Str × Str × Str)) :=
  match r with
  | .ok D => some (D.messages.map fun m => (m.name, m.package, m.module))
  | .error _ => none

/-- C69 fails: read by itself, `C` has no package and module `c`; in the result for `b.proto` too; but in the result for
`a.proto`, it has package and module `b`. So it is not the message `C` that a file importing `c.proto` directly has, and the
generated code refers to it as `b::C`, which does not exist: the code for `C` is in module `c`. -/
theorem C69_refuted :
    placed (readProtoFile filesABC [c! "."] 9 (c! "c.proto")) = some [(c! "C", [], c! "c")] ∧
    placed (readProtoFile filesABC [c! "."] 9 (c! "b.proto")) = some [(c! "B", c! "b", c! "b"), (c! "C", [], c! "c")] ∧
    placed (readProtoFile filesABC [c! "."] 9 (c! "a.proto")) =
      some [(c! "A", [], c! "a"), (c! "B", c! "b", c! "b"), (c! "C", c! "b", c! "b")] := by
  refine ⟨?_, ?_, ?_⟩ <;> decide +kernel

/-! ## C70: import cycles -/

/-- C70, the part that holds: a file is never accepted if it imports itself, directly or through other files, or imports such
a file. Acceptance means that there are no infinite chains of imports. -/
theorem C70_accepted_partial {fs : Files} {search : List Str} {n : Nat} {p : Str} {D : FileDescriptor}
    (h : readProtoFile fs search n p = .ok D) : ¬ ∃ f : Nat → Str, f 0 = p ∧ ∀ i, Imports fs search (f i) (f (i + 1)) := by
  have hacc := acc_of_read n h
  clear h
  induction hacc with
  | intro p _ ih =>
    rintro ⟨f, rfl, hf⟩
    exact ih (f 1) (hf 0) ⟨fun i => f (i + 1), rfl, fun i => hf (i + 1)⟩

/-- If there are no infinite chains of imports then reading ends, with an error or without, and the depth of the
recursion matters no more from some depth on: `readProtoFile` then is what `read_proto` computes. -/
theorem C70_ends_partial {fs : Files} {search : List Str} {p : Str} (h : Acc (fun q p => Imports fs search p q) p) :
    ∃ n, readProtoFile fs search n p ≠ .error .depth ∧ ∀ m, n ≤ m → readProtoFile fs search m p = readProtoFile fs search n p := by
  obtain ⟨n, hn⟩ := read_acc h
  exact ⟨n, hn, fun m hm => read_mono_le hm hn⟩

/-- C70 fails, always: on a cycle of imports (or any infinite chain) in which each file is the first import of the one before,
the recursion never ends, whatever the depth. No error is reported; the program overflows the stack. -/
theorem C70_refuted {fs : Files} {search : List Str} (f : Nat → Str)
    (h : ∀ i, ∃ D imp imps, Reads fs (f i) D (imp :: imps) ∧ ImportMeans fs search (f i) imp (f (i + 1))) (n : Nat) :
    readProtoFile fs search n (f 0) = .error .depth := by
  induction n generalizing f with
  | zero => rfl
  | succ n ih =>
    obtain ⟨D, imp, imps, ⟨t, h1, h2⟩, h3⟩ := h 0
    have := ih (fun i => f (i + 1)) fun i => h (i + 1)
    simp only [Nat.zero_add] at this
    rw [readProtoFile, h1]
    simp only [h2, fetchImports, findImport_iff.mpr h3, this]

/-- A file that imports itself. -/
def filesLoop (p : Str) : Option Str := if p = c! "/p/a.proto" then some (c! "import \"a.proto\"; message A { }") else none

example : ∀ n, readProtoFile filesLoop [c! "/p"] n (c! "/p/a.proto") = .error .depth := by
  refine C70_refuted (fun _ => c! "/p/a.proto") fun _ => ?_
  have h : (match parseFile (c! "/p/a.proto") (c! "import \"a.proto\"; message A { }") with
    | .ok (_, imps) => some imps | _ => none) = some [c! "a.proto"] := by decide +kernel
  split at h
  · rename_i D imps hD
    cases h
    exact ⟨D, _, _, ⟨_, by decide +kernel, hD⟩, [], _, [], rfl, by decide +kernel, by decide +kernel, fun d hd => by cases hd⟩
  · cases h

/-- The files of `C69_refuted` have no cycles (so `C70_ends_partial` applies to them). -/
example : Acc (fun q p => Imports filesABC [c! "."] p q) (c! "b.proto") := by
  cases h : readProtoFile filesABC [c! "."] 9 (c! "b.proto") with
  | ok D => exact acc_of_read 9 h
  | error e =>
    have := C69_refuted.2.1
    rw [h] at this
    cases this

end QP.Pbrs
