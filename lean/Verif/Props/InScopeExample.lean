import Verif.Props.InScope
set_option linter.unusedVariables false
/-!
# A file that meets the conditions of C96, and files whose code uses names that are not in scope
-/

namespace QP.Rust
open QP.Pbrs RunExample

namespace InScopeExample

def text : Str := c! "package a; message M { optional string s = 1; map<int32, bytes> m = 2; optional M r = 3; message P { repeated fixed32 x = 1 [packed = true]; } required P p = 4; oneof o { bytes b = 5; P q = 6; } }"
def before : Disk := disk [(c! "a.proto", text)] []
/-- Without `std`, with owned variants and `MessageInfo`. -/
def job : Job := { inFile := c! "a.proto", outFile := c! "a.rs", search := [c! "."], cfg := { nostd := true, owned := true, genInfo := true } }

/-- The names in the code of a message. -/
def usesOf (E : FileDescriptor) (cfg : Config) (m : Message) : Option (List Str) :=
  (structDef E cfg m).bind fun s => (constItems E cfg m).bind fun cs => (getterItems E cfg m).map fun gs =>
    itemUses s cs gs cfg.genInfo E.owned (decide (hasLifetime E cfg [] m.index = some true))

/-- The names in the code of the first message. -/
def firstUses (j : Job) (d : Disk) : List Str :=
  ((j.compiled 1 d).bind fun E => (E.getMessage [0]).bind fun m => usesOf E j.cfg m).getD []

theorem noNested_of {D : FileDescriptor} (h : ((Message.preorderAll [] 0 D.messages).all fun p => p.2.allFields.all fun f => f.typ.flat) = true) : NoNestedMaps D :=
  fun i m hm f hf => List.all_eq_true.mp (List.all_eq_true.mp h _ ((mem_preorder_file D _ _).mpr hm)) f hf

/-- The conditions of `C96_run_partial` are met, also those on the entries, and both messages use names that have to be imported. -/
theorem C96_example : ∃ d' E es p m s cs gs, writeProto [] 1 job before = (.ok (), d') ∧ job.compiled 1 before = some E ∧ d'.file p = some (Entry.docs es).str ∧ Clean es ∧ NoNameClash es ∧
    E.getMessage [0] = some m ∧ structDef E job.cfg m = some s ∧ constItems E job.cfg m = some cs ∧ getterItems E job.cfg m = some gs ∧
    (∀ x ∈ itemUses s cs gs true true true, x ∈ prelude true ∨ InScope es [] x) ∧
    (∀ x ∈ [c! "KVMap", c! "Cow", c! "Vec", c! "Box", c! "TryInto", c! "sizeof_varint"], x ∈ itemUses s cs gs true true true ∧ x ∉ prelude true) := by
  have h : (match Parse.readProto text, writeProto [] 1 job before, readProtoFile before.file job.search 1 job.inFile, job.compiled 1 before with
    | .ok F _, (.ok (), _), .ok D, some E => ((Message.preorderAll [] 0 F.desc.messages).all fun p => decide (sanitizeKeyword p.2.name = p.2.name)) &&
      ((Message.preorderAll [] 0 D.messages).all fun p => p.2.allFields.all fun f => f.typ.flat) &&
      ((Message.preorderAll [] 0 E.messages).all fun p => p.2.fields.all fun f => decide (f.frequency ≠ .p3optional)) &&
      (match fileEntries E job.cfg (splitSlash job.inFile).2 0 with
        | some es => decide (names es).Nodup && Entry.cleanAllB es && Entry.clashFreeAllB es
        | none => false) &&
      decide (servicesOf text = 0) &&
      (match E.messages with
        | [t] => decide (t.imported = false) && decide (t.mustGenerateImplDefault E job.cfg = false) && decide (hasLifetime E job.cfg [] t.index = some true)
        | _ => false) &&
      decide (home E [0] = [] ∧ E.owned = true) &&
      [c! "KVMap", c! "Cow", c! "Vec", c! "Box", c! "TryInto", c! "sizeof_varint"].all fun x => (firstUses job before).contains x
    | _, _, _, _ => false) = true := by decide +kernel
  split at h
  case h_2 => cases h
  rename_i F r d' D E hF hw hr hE
  simp only [Bool.and_eq_true, decide_eq_true_eq] at h
  obtain ⟨⟨⟨⟨⟨⟨⟨h1, h2⟩, h3⟩, h4⟩, h5⟩, h6⟩, h7⟩, h8⟩ := h
  split at h4
  case h_2 => cases h4
  rename_i es hes
  split at h6
  case h_2 => cases h6
  rename_i t hts
  simp only [Bool.and_eq_true, decide_eq_true_eq] at h4 h6
  have ht : before.file job.inFile = some text := rfl
  obtain ⟨p, E', es', g1, g2, g3, g4, g5⟩ := C96_run_partial (j := job) rfl hw hr (noNested_of h2) (Parse.oneSyntax_file (by decide +kernel)) ht hF (kept_of h1)
  cases hE.symm.trans g2
  rw [ht, Option.getD_some, h5] at g3
  cases hes.symm.trans g3
  have hc := clean_of h4.1.1 h4.1.2
  have hn := noNameClash_of h4.2
  have hm : E.getMessage [0] = some t := by
    rw [FileDescriptor.getMessage, hts]
    rfl
  have ho : Own E [0] := ⟨0, [], t, rfl, by rw [hts]; rfl, h6.1.1⟩
  obtain ⟨⟨ei, s, cs, gs, k1, k2, k3, k4, k5, k6⟩, _⟩ := g5 hc hn [0] t ho hm ⟨fun _ => rfl, fun _ _ h => by rw [h6.1.2] at h; cases h⟩
  rw [h6.2, h7.1, h7.2] at k6
  have k6 : ∀ x ∈ itemUses s cs gs true true true, x ∈ prelude true ∨ InScope es [] x := k6
  have hu : firstUses job before = itemUses s cs gs true true true := by
    unfold firstUses
    rw [hE]
    simp only [Option.bind_some, hm, usesOf, k2, k3, k4, Option.map_some, Option.getD_some, h6.2, h7.2]
    rfl
  refine ⟨d', E, es, p, t, s, cs, gs, hw, hE, g4, hc, hn, hm, k2, k3, k4, k6, fun x hx => ⟨?_, ?_⟩⟩
  · rw [← hu]
    exact List.contains_iff_mem.mp (List.all_eq_true.mp h8 x hx)
  · revert x
    decide

/-! ## Names that are not in scope -/

/-- A run succeeds, and in the code of the first message of the file there is a name of the library that is not in scope. -/
def Missing (d : Disk) (j : Job) (x : Str) : Prop :=
  ∃ d' E es p m us, writeProto [] 1 j d = (.ok (), d') ∧ j.compiled 1 d = some E ∧ fileEntries E j.cfg (splitSlash j.inFile).2 0 = some es ∧
    d'.file p = some (Entry.docs es).str ∧ Own E [0] ∧ E.getMessage [0] = some m ∧ usesOf E j.cfg m = some us ∧ x ∈ us ∧
    x ∉ prelude j.cfg.nostd ∧ ¬ InScope es (home E [0]) x

theorem hidden {es : List Entry} {x : Str} (h : es.any (fun e => e.declares.contains x && !bringsB x e) = true) : ¬ InScope es [] x := by
  obtain ⟨e, he, h⟩ := List.any_eq_true.mp h
  simp only [Bool.and_eq_true, Bool.not_eq_true'] at h
  intro hs
  cases hs with
  | @here _ es' _ e' hi he' hb hall =>
    cases hi
    have := brings_iff.mpr (hall e he (List.mem_append_left _ (List.contains_iff_mem.mp h.1)))
    rw [h.2] at this
    cases this
  | outer _ _ hne _ _ => exact hne rfl

theorem missing_of {d : Disk} {j : Job} {x : Str} (h : (match writeProto [] 1 j d, j.compiled 1 d, j.out 1 d with
    | (.ok (), d'), some E, some p => (match fileEntries E j.cfg (splitSlash j.inFile).2 0, E.messages, d'.file p with
      | some es, t :: _, some f => decide (f = (Entry.docs es).str) && decide (t.imported = false) &&
        (match usesOf E j.cfg t with | some us => us.contains x | none => false) && decide (home E [0] = []) && !(prelude j.cfg.nostd).contains x &&
        ((es.all fun e => !bringsB x e) || es.any fun e => e.declares.contains x && !bringsB x e)
      | _, _, _ => false)
    | _, _, _ => false) = true) : Missing d j x := by
  split at h
  case h_2 => cases h
  rename_i d' E p hw hE hp
  split at h
  case h_2 => cases h
  rename_i es t ts f hes hts hf
  simp only [Bool.and_eq_true, decide_eq_true_eq, Bool.or_eq_true, Bool.not_eq_true'] at h
  obtain ⟨⟨⟨⟨⟨h1, h2⟩, h3⟩, h4⟩, h5⟩, h6⟩ := h
  split at h3
  case h_2 => cases h3
  rename_i us hus
  refine ⟨d', E, es, p, t, us, hw, hE, hes, by rw [hf, h1], ⟨0, [], t, rfl, by rw [hts]; rfl, h2⟩, ?_, hus, List.contains_iff_mem.mp h3, ?_, ?_⟩
  · rw [FileDescriptor.getMessage, hts]; rfl
  · intro hx
    rw [List.contains_iff_mem.mpr hx] at h5
    cases h5
  · rw [h4]
    rcases h6 with h6 | h6
    · exact not_inScope h6
    · exact hidden h6

/-- The message of a file. -/
def fileOf (s : Str) : Disk := disk [(c! "a.proto", s)] []

/-- Without `std` and with `dont_use_cow`, `String` is used without being imported. -/
theorem C96_refuted_string : Missing (fileOf (c! "message M { optional string s = 1; }")) { inFile := c! "a.proto", outFile := c! "a.rs", search := [c! "."], cfg := { nostd := true, dontUseCow := true } }
    (c! "String") := missing_of (by decide +kernel)

/-- Without `std` and with `dont_use_cow`, `ToOwned` is not imported for a map of bytes: only the types of fields are looked at. -/
theorem C96_refuted_toOwned : Missing (fileOf (c! "message M { map<int32, bytes> s = 1; }")) { inFile := c! "a.proto", outFile := c! "a.rs", search := [c! "."], cfg := { nostd := true, dontUseCow := true } }
    (c! "ToOwned") := missing_of (by decide +kernel)

/-- Without `std` and without `hashbrown`, maps are `BTreeMap`s, but a `Default` that is written out has `HashMap::new()`. -/
theorem C96_refuted_hashMap : Missing (fileOf (c! "message M { required int32 i = 1 [default = 5]; map<int32, int32> s = 2; }")) { inFile := c! "a.proto", outFile := c! "a.rs", search := [c! "."], cfg := { nostd := true } }
    (c! "HashMap") := missing_of (by decide +kernel)

/-- A message called `WriterBackend` hides that of the library (one called `Writer` is renamed). -/
theorem C96_refuted_clash : Missing (fileOf (c! "message WriterBackend { optional int32 i = 1; }")) { inFile := c! "a.proto", outFile := c! "a.rs", search := [c! "."] }
    (c! "WriterBackend") := missing_of (by decide +kernel)

end InScopeExample
end QP.Rust
