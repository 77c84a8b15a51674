import Verif.Proofs.GenExists
import Verif.Proofs.Printed
import Verif.Proofs.RustTypes
import Verif.Spec.Distinct
import Verif.Props.Run
import Verif.Props.Imports
import Verif.Props.Messages
import Verif.Props.Example
set_option linter.unusedVariables false
/-!
# The text of generated code, and what it does

C77: the text. C78: its meaning. C79: round trips of the program that was printed.
-/

namespace QP.Rust
open QP.Pbrs QP.Gen

/-- What compiling ensures about fields. -/
theorem compile_sane {path : FileDescriptor → FieldType → Str} {cfg : Config} {D D' : FileDescriptor} (hP : Parsed D)
    (h : D.compile path cfg = .ok D') {i : MessageIndex} {m' : Message} (hm' : D'.getMessage i = some m') : MessageSane m' := by
  obtain ⟨H, v, hv⟩ := compile_via h
  have hB := (compile_boxedSane hP h).1
  obtain ⟨m, hm, hf, ho, ha⟩ := v.message hm'
  refine ⟨?_, fun o ho f hf => hB i m' hm' f (List.mem_append_right _ (List.mem_flatMap.mpr ⟨o, ho, hf⟩))⟩
  intro f' hf1
  have hb := hB i m' hm' f' (List.mem_append_left _ hf1)
  rw [hf] at hf1
  obtain ⟨f, hff, rfl⟩ := List.mem_map.mp hf1
  have hfm : f ∈ m.allFields := List.mem_append_left _ hff
  have c := hv i m hm f hfm
  have hr := hP.raw i m hm f hfm
  have hmp := hP.map i m hm f hff
  obtain ⟨t, ht, e⟩ := c.typ
  have hmt : t.isMap = f.typ.isMap := by
    cases hty : f.typ with
    | map k w =>
      rw [hty] at ht
      obtain ⟨_, _, rfl, _⟩ := ht
      rfl
    | _ =>
      rw [hty] at ht hr
      rcases resolvesOne_cases (resolvesTo_one rfl ht) hr with ⟨j, rfl, _⟩ | ⟨e, rfl, _⟩ | ⟨rfl, _⟩ <;> rfl
  have hmt' : (H i f).typ.isMap = f.typ.isMap := by
    rw [e, ← hmt]
    split
    · cases t <;> rfl
    · rfl
  refine ⟨?_, hb⟩
  rcases c.frequency with h1 | ⟨⟨j, h1⟩, _, _, h2⟩
  · rw [h1, hmt', hmp]
  · rw [h1]
    cases hq : (H i f).frequency <;> rw [hq] at h2 <;> first | rfl | cases h2

/-- Of a message of the file: its struct, its functions and its oneofs are in the text. -/
theorem C77_file {path : FileDescriptor → FieldType → Str} {cfg : Config} {D D' : FileDescriptor} {filename : Str} {services : Nat} {d : Doc}
    (hP : Parsed D) (h : D.compile path cfg = .ok D') (hw : (D'.printed cfg).write cfg filename services = .ok d)
    {i : Nat} {is : List Nat} {t m : Message} (ht : D'.messages[i]? = some t) (hi : t.imported = false) (hm : D'.getMessage (i :: is) = some m) :
    ∃ s l, structDef (D'.printed cfg) cfg m = some s ∧ (m.isUnit = false → structDeclares (D'.printed cfg) cfg m.index = some l) ∧
      HasStruct d m.name m.isUnit l (deprecations cfg m) s ∧
      ∀ o ∈ m.oneofs, ∃ l vs, o.hasLifetime (D'.printed cfg) cfg = some l ∧ variantTys (D'.printed cfg) cfg o = some vs ∧
        HasOneof d o.name l ((o.shown cfg).map (·.deprecated)) vs := by
  have hmsgs : (D'.printed cfg).messages = D'.messages := by unfold FileDescriptor.printed; split <;> rfl
  have hm2 : (D'.printed cfg).getMessage (i :: is) = some m := by
    rw [← hm]; unfold FileDescriptor.getMessage; rw [hmsgs]
  obtain ⟨d', hd', hh⟩ := file_has hw (hmsgs ▸ ht) hi hm2
  obtain ⟨s, l, h1, h2, h3, h4⟩ := message_has (compile_sane hP h hm) hd'
  refine ⟨s, l, h1, h2, ⟨Has.trans hh h3.struct, fun es he => Has.trans hh (h3.default es he),
    fun b w hb hw => Has.trans hh (h3.write b w hb hw), fun a b => Has.trans hh (h3.noWrite a b), Has.trans hh h3.read⟩, ?_⟩
  intro o ho
  obtain ⟨l, vs, a, b, c⟩ := h4 o ho
  exact ⟨l, vs, a, b, Has.trans hh c.enum, Has.trans hh c.default⟩

/-- pb-rs run on a file: what it leaves on the disk has the struct, the functions and the oneofs of every message of that file. -/
theorem C77_written {junk : Str} {n : Nat} {j : Job} {d d' : Disk} {D : FileDescriptor} (hn : j.noOutput = false)
    (h : writeProto junk n j d = (.ok (), d')) (hr : readProtoFile d.file j.search n j.inFile = .ok D) (hf : NoNestedMaps D) :
    ∃ p E text, j.out n d = some p ∧ j.compiled n d = some E ∧ d'.file p = some text.str ∧
      ∀ i is t m, E.messages[i]? = some t → t.imported = false → E.getMessage (i :: is) = some m →
        ∃ s l, structDef E j.cfg m = some s ∧ (m.isUnit = false → structDeclares E j.cfg m.index = some l) ∧
          HasStruct text m.name m.isUnit l (deprecations j.cfg m) s ∧
          ∀ o ∈ m.oneofs, ∃ l vs, o.hasLifetime E j.cfg = some l ∧ variantTys E j.cfg o = some vs ∧
            HasOneof text o.name l ((o.shown j.cfg).map (·.deprecated)) vs := by
  obtain ⟨p, t, hp, ht, hd⟩ := C73_written hn h
  unfold Job.text at ht
  obtain ⟨E, hE, ht⟩ := Option.bind_eq_some_iff.mp ht
  have hE' := hE
  unfold Job.compiled compileFile at hE
  simp only [hr] at hE
  cases hc : ({ D with owned := j.cfg.owned } : FileDescriptor).compile (typePath j.cfg) j.cfg with
  | error e => rw [hc] at hE; cases hE
  | ok D' =>
    rw [hc] at hE
    cases hE
    cases hw : (D'.printed j.cfg).write j.cfg (splitSlash j.inFile).2 (servicesOf ((d.file j.inFile).getD [])) with
    | error e => simp only [hw] at ht; cases ht
    | ok text =>
      simp only [hw] at ht
      cases ht
      refine ⟨p, _, text, hp, hE', hd, ?_⟩
      have hmsgs : (D'.printed j.cfg).messages = D'.messages := by unfold FileDescriptor.printed; split <;> rfl
      intro i is t m h1 h2 h3
      rw [hmsgs] at h1
      exact C77_file (parsed_owned _ (C68_parsed hr hf)) hc hw h1 h2 (by rw [← h3]; unfold FileDescriptor.getMessage; rw [hmsgs])

section
variable {C : Ctx} {P : Prog} {dflt : Path → RVal}

/-- The generated `get_size` and `write_message` do what the model of generated code says. -/
theorem C78_write (G : Generates C P dflt) (hS : SchemaOk C) (hK : PackedOk C) {Q : Field → RVal → Prop} (n : Nat) (idx : MessageIndex)
    (m : Message) (hm : C.D.getMessage idx = some m) (v : RVal) (hv : WellTyped C Q n idx v) :
    (P.writeImpl C.T dflt n (messagePath C.D m)).get_size v = (writeImpl C n idx).get_size v ∧
    ∀ (σ : Type) [WriterBackend σ], (P.writeImpl C.T dflt n (messagePath C.D m)).write_message v σ = (writeImpl C n idx).write_message v σ :=
  prog_write G hS hK n idx m hm v hv

/-- The generated `from_reader` does what the model of generated code says, on every input. -/
theorem C78_read (G : Generates C P dflt) (hS : SchemaOk C) (hK : PackedOk C) (hD : P.IsDefault C.T dflt) (fuel : Nat)
    (idx : MessageIndex) (m : Message) (hm : C.D.getMessage idx = some m) :
    P.fromReader C.T dflt fuel (messagePath C.D m) = fromReader C fuel idx :=
  funext fun b => prog_read G hS hK (isDefault_of_prog G hS hK hD) fuel idx m hm b

/-- The generated `Default` is the one of the model of generated code. -/
theorem C78_default (G : Generates C P dflt) (hS : SchemaOk C) (hK : PackedOk C) (hD : P.IsDefault C.T dflt) : IsDefault C :=
  isDefault_of_prog G hS hK hD

end

/-- What is printed was compiled. -/
theorem compiled_compile {n : Nat} {j : Job} {d : Disk} {D E : FileDescriptor} (hr : readProtoFile d.file j.search n j.inFile = .ok D)
    (hE : j.compiled n d = some E) :
    ∃ D', ({ D with owned := j.cfg.owned } : FileDescriptor).compile (typePath j.cfg) j.cfg = .ok D' ∧ E = D'.printed j.cfg := by
  unfold Job.compiled compileFile at hE
  simp only [hr] at hE
  cases hc : ({ D with owned := j.cfg.owned } : FileDescriptor).compile (typePath j.cfg) j.cfg with
  | error e => rw [hc] at hE; cases hE
  | ok D' => rw [hc] at hE; cases hE; exact ⟨D', rfl, rfl⟩

/-- Serializing depends only on the two functions. -/
theorem serialize_congr {M : Type} {I J : MessageWrite M} {v : M} (h1 : I.get_size v = J.get_size v)
    (h2 : ∀ (σ : Type) [WriterBackend σ], I.write_message v σ = J.write_message v σ) : serialize_into_vec I v = serialize_into_vec J v := by
  unfold serialize_into_vec write_message
  rw [h1, h2]

/-- Whatever is written with the generated functions is read back by them. -/
theorem C79_roundtrip {C : Ctx} {P : Prog} {dflt : Path → RVal} (G : Generates C P dflt) (hS : SchemaOk C) (hK : PackedOk C)
    (hD : P.IsDefault C.T dflt) (hT : C.T.bigEndian = false) (n : Nat) (idx : MessageIndex) (m : Message)
    (hm : C.D.getMessage idx = some m) (v : RVal) (hv : WellTyped C Plain n idx v)
    (hsz : (P.writeImpl C.T dflt n (messagePath C.D m)).get_size v < 2 ^ 32)
    (hbits : sizeof_len ((P.writeImpl C.T dflt n (messagePath C.D m)).get_size v) < 2 ^ C.T.usizeBits) :
    ∃ bytes, serialize_into_vec (P.writeImpl C.T dflt n (messagePath C.D m)) v = .ok bytes ∧
      ∀ fuel, bytes.length ≤ fuel → ∃ v',
        deserialize_from_slice C.T (P.fromReader C.T dflt fuel (messagePath C.D m)) bytes = .ok v' ∧ v'.obs = v.obs := by
  obtain ⟨h1, h2⟩ := C78_write G hS hK n idx m hm v hv
  rw [h1] at hsz hbits
  rw [serialize_congr h1 h2]
  obtain ⟨bytes, h3, h4⟩ := C33_roundtrip C hT hS (C78_default G hS hK hD) n idx v hv hsz hbits
  refine ⟨bytes, h3, fun fuel hf => ?_⟩
  rw [C78_read G hS hK hD fuel idx m hm]
  exact h4 fuel hf

/-- A run of pb-rs, and the program it prints: the file on the disk has the items of a program, in which no path is defined twice and
which has default values. -/
theorem run_program {junk : Str} {n : Nat} {j : Job} {d d' : Disk} {D E : FileDescriptor} (hn : j.noOutput = false)
    (h : writeProto junk n j d = (.ok (), d')) (hr : readProtoFile d.file j.search n j.inFile = .ok D) (hf : NoNestedMaps D)
    (hN : Numbered D) (hK : NestedPackedOk D) (hE : j.compiled n d = some E)
    (hI : ∀ t ∈ E.messages, t.imported = true → ∃ x, t.write E j.cfg = .ok x) (hX : Distinct E j.cfg)
    (hcow : ∀ i m, E.getMessage i = some m → ∀ f ∈ m.fields, f.visible j.cfg = true → isPackedFixed f = true → j.cfg.dontUseCow = false) {K : Ty → Str → RVal} (hL : Literals E j.cfg K) (T : Target) :
    ∃ p text C P dflt, j.out n d = some p ∧ d'.file p = some (Doc.str text) ∧ C.T = T ∧ C.D = E ∧ C.cfg = j.cfg ∧ P.const = K ∧
      Generates C P dflt ∧ P.IsDefault T dflt ∧ SchemaOk C ∧ PackedOk C ∧ OneKind P ∧
      (∀ i is t m, E.messages[i]? = some t → t.imported = false → E.getMessage (i :: is) = some m →
        ∃ s l, P.structs (messagePath E m) = some s ∧ HasStruct text m.name m.isUnit l (deprecations j.cfg m) s ∧
          ∀ o ∈ m.oneofs, ∃ l vs, P.oneofs (oneofPath E o) = some vs ∧
            HasOneof text o.name l ((o.shown j.cfg).map (·.deprecated)) vs) := by
  obtain ⟨p, E', text, hp, hE', hd, hitems⟩ := C77_written hn h hr hf
  cases hE.symm.trans hE'
  have hP := parsed_owned j.cfg.owned (C68_parsed hr hf)
  obtain ⟨D', hc, hEp⟩ := compiled_compile hr hE
  have hmsgs : E.messages = D'.messages := by rw [hEp]; unfold FileDescriptor.printed; split <;> rfl
  have hget : ∀ idx, E.getMessage idx = D'.getMessage idx := by intro idx; unfold FileDescriptor.getMessage; rw [hmsgs]
  have hsized : AllSized E := by
    have := compile_allSized hc
    unfold AllSized Contains at this ⊢
    simp only [hget]
    exact this
  obtain ⟨df, hdf⟩ := C49_defaults_exist ⟨T, E, j.cfg, fun _ => .none, fun t s => K (litTy E j.cfg t) s⟩ hsized
  have hS : SchemaOk ⟨T, E, j.cfg, df, fun t s => K (litTy E j.cfg t) s⟩ := by
    have h0 := C65_schema_ok (C := ⟨T, D', j.cfg, df, fun t s => K (litTy E j.cfg t) s⟩) hP ⟨hN.range, hN.distinct⟩ (nestedPacked_owned hK) hc
    intro idx m hm
    exact h0 idx m (by rw [← hget]; exact hm)
  have hPk : PackedOk ⟨T, E, j.cfg, df, fun t s => K (litTy E j.cfg t) s⟩ := hcow
  have hall : ∀ idx m, E.getMessage idx = some m → (∃ s, structDef E j.cfg m = some s) ∧
      ∀ o ∈ m.oneofs, ∃ vs, variantTys E j.cfg o = some vs := by
    intro idx m hm
    cases idx with
    | nil => cases hm
    | cons i is =>
      have hm' := hm
      simp only [FileDescriptor.getMessage] at hm'
      obtain ⟨t, ht, hdesc⟩ := Option.bind_eq_some_iff.mp hm'
      cases himp : t.imported
      · obtain ⟨s, l, h1, _, _, h2⟩ := hitems i is t m ht himp hm
        exact ⟨⟨s, h1⟩, fun o ho => by obtain ⟨_, vs, _, h, _⟩ := h2 o ho; exact ⟨vs, h⟩⟩
      · obtain ⟨x, hx⟩ := hI t (List.mem_of_getElem? ht) himp
        obtain ⟨d', hd', _⟩ := descend_has hx hdesc
        obtain ⟨s, l, h1, _, _, h2⟩ := message_has (compile_sane hP hc (by rw [← hget]; exact hm)) hd'
        exact ⟨⟨s, h1⟩, fun o ho => by obtain ⟨_, vs, _, h, _⟩ := h2 o ho; exact ⟨vs, h⟩⟩
  have G := generates_progOf (C := ⟨T, E, j.cfg, df, fun t s => K (litTy E j.cfg t) s⟩) (K := K) hX hL rfl
    (fun idx m hm => (hall idx m hm).1) (fun idx m hm => (hall idx m hm).2)
  have hD := isDefault_progOf hX G hS hPk hdf
  refine ⟨p, text, ⟨T, E, j.cfg, df, fun t s => K (litTy E j.cfg t) s⟩, _, _, hp, hd, rfl, rfl, rfl, rfl, G, hD, hS, hPk, oneKind_progOf hX, ?_⟩
  intro i is t m h1 h2 h3
  obtain ⟨s, l, hs, _, hh, ho⟩ := hitems i is t m h1 h2 h3
  refine ⟨s, l, by rw [progOf_struct hX h3]; exact hs, hh, ?_⟩
  intro o hoo
  obtain ⟨l, vs, _, hv, hh⟩ := ho o hoo
  exact ⟨l, vs, by rw [progOf_oneof hX h3 hoo]; exact hv, hh⟩

/-- A run of pb-rs, and the program it prints (not for packed fixed-size fields with `--dont_use_cow`: `C79_refuted_cow`): the file on the disk has the items of a program; that program has default values, and
whatever its `write_message` writes, its `from_reader` reads back. -/
theorem C79_run_partial {junk : Str} {n : Nat} {j : Job} {d d' : Disk} {D E : FileDescriptor} (hn : j.noOutput = false)
    (h : writeProto junk n j d = (.ok (), d')) (hr : readProtoFile d.file j.search n j.inFile = .ok D) (hf : NoNestedMaps D)
    (hN : Numbered D) (hK : NestedPackedOk D) (hE : j.compiled n d = some E)
    (hI : ∀ t ∈ E.messages, t.imported = true → ∃ x, t.write E j.cfg = .ok x) (hX : Distinct E j.cfg)
    (hcow : ∀ i m, E.getMessage i = some m → ∀ f ∈ m.fields, f.visible j.cfg = true → isPackedFixed f = true → j.cfg.dontUseCow = false) {K : Ty → Str → RVal} (hL : Literals E j.cfg K) (T : Target) (hT : T.bigEndian = false) :
    ∃ p text C P dflt, j.out n d = some p ∧ d'.file p = some (Doc.str text) ∧ C.T = T ∧ C.D = E ∧ C.cfg = j.cfg ∧ P.const = K ∧
      Generates C P dflt ∧ P.IsDefault T dflt ∧
      (∀ i is t m, E.messages[i]? = some t → t.imported = false → E.getMessage (i :: is) = some m →
        ∃ s l, P.structs (messagePath E m) = some s ∧ HasStruct text m.name m.isUnit l (deprecations j.cfg m) s ∧
          ∀ o ∈ m.oneofs, ∃ l vs, P.oneofs (oneofPath E o) = some vs ∧
            HasOneof text o.name l ((o.shown j.cfg).map (·.deprecated)) vs) ∧
      ∀ n idx m v, E.getMessage idx = some m → WellTyped C Plain n idx v →
        (P.writeImpl T dflt n (messagePath E m)).get_size v < 2 ^ 32 →
        sizeof_len ((P.writeImpl T dflt n (messagePath E m)).get_size v) < 2 ^ T.usizeBits →
        ∃ bytes, serialize_into_vec (P.writeImpl T dflt n (messagePath E m)) v = .ok bytes ∧
          ∀ fuel, bytes.length ≤ fuel → ∃ v',
            deserialize_from_slice T (P.fromReader T dflt fuel (messagePath E m)) bytes = .ok v' ∧ v'.obs = v.obs := by
  obtain ⟨p, text, C, P, dflt, h1, h2, h3, h4, h5, h6, G, hD, hS, hPk, _, h7⟩ := run_program hn h hr hf hN hK hE hI hX hcow hL T
  subst h3 h4
  exact ⟨p, text, C, P, dflt, h1, h2, rfl, rfl, h5, h6, G, hD, h7, fun n idx m v hm hv hsz hbits =>
    C79_roundtrip G hS hPk hD hT n idx m hm v hv hsz hbits⟩

/-! ## An example -/

namespace GeneratedExample
open RunExample

/-- A file with a custom default, a packed fixed-size field, a map, a recursive message, an enum, a nested message and a oneof. -/
def proto : Str := c! "enum Color { RED = 3; BLUE = 5; } message Node { required int32 id = 1 [default = 42]; optional string name = 2; repeated fixed32 ys = 4 [packed = true]; map<string, int32> props = 6; optional Node child = 7; required Color kind = 9; required Inner inner = 10; message Inner { optional bytes v = 1; } oneof pick { bool a = 16; Node b = 17; } }"

def job : Job := { inFile := c! "ex.proto", outFile := c! "ex.rs" }
def before : Disk := disk [(c! "ex.proto", proto)] []

/-- The meaning of the two literals that are printed. -/
def lits (t : Ty) (s : Str) : RVal := if t = .i32 ∧ s = c! "42i32" then .w32 42 else .w32 3

/-- What is checked of the schema that is read. -/
def okRead (D : FileDescriptor) : Bool :=
  decide (∀ p ∈ Message.preorderAll [] 0 D.messages, (∀ f ∈ p.2.allFields, f.typ.flat = true) ∧
    (∀ f ∈ p.2.allFields, 0 < f.number ∧ f.number < 2 ^ 29) ∧ (p.2.allFields.map (·.number)).Nodup ∧
    (1 < p.1.length → ∀ f ∈ p.2.allFields, f.packed ≠ some true))

def fId : Field := { name := c! "id", frequency := .p2required, typ := .int32, number := 1, default := some (c! "42i32") }
def fName : Field := { name := c! "name", frequency := .p2optional, typ := .stringCow, number := 2 }
def fYs : Field := { name := c! "ys", frequency := .p2repeated, typ := .fixed32, number := 4, packed := some true }
def fProps : Field := { name := c! "props", frequency := .p2map, typ := .map .stringCow .int32, number := 6 }
def fChild : Field := { name := c! "child", frequency := .p2optional, typ := .message [0], number := 7, boxed := true }
def fKind : Field := { name := c! "kind", frequency := .p2required, typ := .enum ⟨[], 0⟩, number := 9 }
def fInner : Field := { name := c! "inner", frequency := .p2required, typ := .message [0, 0], number := 10 }
def fA : Field := { name := c! "a", frequency := .p2required, typ := .bool, number := 16 }
def fB : Field := { name := c! "b", frequency := .p2optional, typ := .message [0], number := 17, boxed := true }
def fV : Field := { name := c! "v", frequency := .p2optional, typ := .bytesCow, number := 1 }

/-- The messages that are printed. -/
def members0 : List Member := [.field fId, .field fName, .field fYs, .field fProps, .field fChild, .field fKind, .field fInner, .oneof [fA, fB]]
def members1 : List Member := [.field fV]

/-- What is checked of the schema that is printed. -/
def okPrinted (E : FileDescriptor) : Bool :=
  distinctB E {} && decide (∀ t ∈ E.messages, t.imported = false) &&
    decide (∀ p ∈ enumList E, ∀ s, p.2.fullyQualified.head? = some s →
      (p.2.fields.map fun p => BitVec.ofInt 32 p.2).headD 0 = 3) &&
    decide (∀ p ∈ Message.preorderAll [] 0 E.messages, ∀ f ∈ p.2.fields, f.default.isSome = true → f.typ = .int32) &&
    decide ((E.getMessage [0]).map (fun m => (m.fields, m.oneofs.map (·.fields))) =
      some ([fId, fName, fYs, fProps, fChild, fKind, fInner], [[fA, fB]])) &&
    decide ((E.getMessage [0, 0]).map (fun m => (m.fields, m.oneofs.map (·.fields))) = some ([fV], [])) &&
    decide ((E.getEnum ⟨[], 0⟩).map (·.fields) = some [(c! "RED", 3), (c! "BLUE", 5)])

/-- The run of the example meets the conditions of `C79_run_partial`. -/
theorem conditions : ∃ D E d', writeProto [] 1 job before = (.ok (), d') ∧ readProtoFile before.file job.search 1 job.inFile = .ok D ∧
    NoNestedMaps D ∧ Numbered D ∧ NestedPackedOk D ∧ job.compiled 1 before = some E ∧
    (∀ t ∈ E.messages, t.imported = true → ∃ x, t.write E job.cfg = .ok x) ∧ Distinct E job.cfg ∧ Literals E job.cfg lits ∧
    (∃ m, E.getMessage [0] = some m ∧ members {} m = members0) ∧ (∃ m, E.getMessage [0, 0] = some m ∧ members {} m = members1) ∧
    ∃ en, E.getEnum ⟨[], 0⟩ = some en ∧ en.fields.map (·.2) = [3, 5] := by
  have h0 : (writeProto [] 1 job before).1.isOk = true := by decide +kernel
  have h1 : (match readProtoFile before.file job.search 1 job.inFile with | .ok D => okRead D | .error _ => false) = true := by decide +kernel
  have h2 : (match job.compiled 1 before with | some E => okPrinted E | none => false) = true := by decide +kernel
  cases hD : readProtoFile before.file job.search 1 job.inFile with
  | error e => rw [hD] at h1; cases h1
  | ok D =>
    rw [hD] at h1
    cases hE : job.compiled 1 before with
    | none => rw [hE] at h2; cases h2
    | some E =>
      rw [hE] at h2
      cases hw : writeProto [] 1 job before with
      | mk r d' =>
        rw [hw] at h0
        cases r with
        | error e => cases h0
        | ok u =>
          have h1 : okRead D = true := h1
          have h2 : okPrinted E = true := h2
          unfold okRead at h1
          unfold okPrinted at h2
          simp only [Bool.and_eq_true, decide_eq_true_eq] at h1 h2
          obtain ⟨⟨⟨⟨⟨⟨a1, a2⟩, a3⟩, a4⟩, a5⟩, a6⟩, a7⟩ := h2
          have h1 := fun i m hm => h1 (i, m) ((mem_preorder_file D i m).mpr hm)
          refine ⟨D, E, d', rfl, rfl, fun i m hm => (h1 i m hm).1, ⟨fun i m hm => (h1 i m hm).2.1, fun i m hm => (h1 i m hm).2.2.1⟩,
            fun i m hi hm f hf hp => absurd hp ((h1 i m hm).2.2.2 hi f hf), rfl, fun t ht hi => ?_, distinct_of a1, ⟨?_, ?_⟩, ?_, ?_, ?_⟩
          · rw [a2 t ht] at hi; cases hi
          · intro e en s he hs
            rw [a3 _ (mem_enumList he) s hs]
            rfl
          · intro idx m hm f hf s hs _ _ C hC
            have ht := a4 _ ((mem_preorder_file E idx m).mpr hm) f hf (by rw [hs]; rfl)
            rw [ht]
            unfold lits
            split <;> exact ⟨_, rfl⟩
          · obtain ⟨m, hm, e⟩ := Option.map_eq_some_iff.mp a5
            obtain ⟨e1, e2⟩ := Prod.mk.inj e
            refine ⟨m, hm, ?_⟩
            have e3 : m.oneofs.map (fun o => Member.oneof (o.fields.filter (·.visible {}))) =
                (m.oneofs.map (·.fields)).map fun fs => Member.oneof (fs.filter (·.visible {})) := by rw [List.map_map]; rfl
            unfold members
            rw [e3, e1, e2]
            rfl
          · obtain ⟨m, hm, e⟩ := Option.map_eq_some_iff.mp a6
            obtain ⟨e1, e2⟩ := Prod.mk.inj e
            refine ⟨m, hm, ?_⟩
            have e3 : m.oneofs.map (fun o => Member.oneof (o.fields.filter (·.visible {}))) =
                (m.oneofs.map (·.fields)).map fun fs => Member.oneof (fs.filter (·.visible {})) := by rw [List.map_map]; rfl
            unfold members
            rw [e3, e1, e2]
            rfl
          · obtain ⟨en, he, e⟩ := Option.map_eq_some_iff.mp a7
            exact ⟨en, he, by rw [e]; rfl⟩

/-- A `Node` with every kind of member set. -/
def value : RVal :=
  .struct [.w32 7, .some (.bytes [0x61#8]), .pf32 (.borrowed [1#8, 2#8, 3#8, 4#8]), .map [(.bytes [0x6b#8], .w32 7)], .none, .w32 5,
    .struct [.some (.bytes [0xff#8])], .choice 0 (.bool true)]

theorem value_typed {C : Ctx} (hcfg : C.cfg = {}) (h0 : ∃ m, C.D.getMessage [0] = some m ∧ members {} m = members0)
    (h1 : ∃ m, C.D.getMessage [0, 0] = some m ∧ members {} m = members1)
    (h2 : ∃ en, C.D.getEnum ⟨[], 0⟩ = some en ∧ en.fields.map (·.2) = [3, 5]) : WellTyped C Plain 2 [0] value := by
  obtain ⟨m, hm, e⟩ := h0
  refine ⟨m, _, hm, rfl, by rw [hcfg, e]; rfl, ?_⟩
  rw [hcfg, e]
  intro p hp
  simp only [members0, List.zip_cons_cons, List.zip_nil_left, List.mem_cons, List.not_mem_nil, or_false] at hp
  rcases hp with rfl | rfl | rfl | rfl | rfl | rfl | rfl | rfl
  · exact ⟨⟨_, rfl⟩, fun h => by cases h⟩
  · exact Or.inr ⟨_, rfl, _, rfl, Gen.Example.utf8_a⟩
  · exact ⟨_, rfl, by intro b h; cases h; exact ⟨1, rfl⟩⟩
  · refine ⟨_, _, [(.bytes [0x6b#8], .w32 7)], rfl, rfl, ?_, by simp⟩
    intro x hx
    simp only [List.mem_cons, List.not_mem_nil, or_false] at hx
    subst hx
    exact ⟨⟨_, rfl, Gen.Example.utf8_k⟩, ⟨_, rfl⟩⟩
  · exact Or.inl rfl
  · refine ⟨⟨_, rfl, ?_⟩, fun h => by cases h⟩
    obtain ⟨en, he, e⟩ := h2
    unfold Ctx.enumNums
    rw [he]
    have : en.fields.map (fun p => BitVec.ofInt 32 p.2) = (en.fields.map (·.2)).map (BitVec.ofInt 32) := by rw [List.map_map]; rfl
    simp only
    rw [this, e]
    decide
  · refine ⟨?_, fun h => by cases h⟩
    obtain ⟨m, hm, e⟩ := h1
    refine ⟨m, _, hm, rfl, by rw [hcfg, e]; rfl, ?_⟩
    rw [hcfg, e]
    intro p hp
    simp only [members1, List.zip_cons_cons, List.zip_nil_left, List.mem_cons, List.not_mem_nil, or_false] at hp
    subst hp
    exact Or.inr ⟨_, rfl, _, rfl⟩
  · exact Or.inr ⟨0, fA, _, rfl, rfl, ⟨_, rfl⟩⟩

/-- So what `C79_run_partial` says holds of the example: pb-rs prints a program with a struct `Node`, of which `value` is a value. -/
theorem C79_example (T : Target) (hT : T.bigEndian = false) : ∃ d' p text C P dflt m, writeProto [] 1 job before = (.ok (), d') ∧
    d'.file p = some (Doc.str text) ∧ C.T = T ∧ Generates C P dflt ∧ SchemaOk C ∧ PackedOk C ∧ P.IsDefault T dflt ∧
    C.D.getMessage [0] = some m ∧ WellTyped C Plain 2 [0] value := by
  obtain ⟨D, E, d', h1, h2, h3, h4, h5, h6, h7, h8, h9, h10, h11, h12⟩ := conditions
  obtain ⟨p, text, C, P, dflt, hp, ht, rfl, rfl, hcfg, _, G, hD, _, _⟩ := C79_run_partial rfl h1 h2 h3 h4 h5 h6 h7 h8 (fun _ _ _ _ _ _ _ => rfl) h9 T hT
  obtain ⟨m, hm, e⟩ := h10
  refine ⟨d', p, text, C, P, dflt, m, h1, ht, rfl, G, ?_, fun _ _ _ _ _ _ _ => by rw [hcfg]; rfl, hD, hm,
    value_typed hcfg ⟨m, hm, e⟩ h11 h12⟩
  obtain ⟨D', hc, hE⟩ := compiled_compile h2 h6
  have := C65_schema_ok (C := { C with D := D' }) (parsed_owned job.cfg.owned (C68_parsed h2 h3)) ⟨h4.range, h4.distinct⟩ (nestedPacked_owned h5)
    (by rw [hcfg]; exact hc)
  intro idx m hm
  refine this idx m ?_
  rw [hE] at hm
  exact hm

end GeneratedExample

open RunExample in
/-- C79 is false with `--dont_use_cow`: the struct has a `Vec<u32>`, to which `from_reader` assigns what `read_packed_fixed` returns (a
`Result` of a `PackedFixed`, reader.rs 458-461): the generated file does not compile. -/
theorem C79_refuted_cow : ∃ (d : Disk) (j : Job) (t : Str), j.cfg.dontUseCow = true ∧ (writeProto [] 1 j d).1.isOk = true ∧
    (writeProto [] 1 j d).2.file (c! "x.rs") = some t ∧
    c! "pub struct M {\n    pub ys: Vec<u32>,\n}" <:+: t ∧ c! " => msg.ys = r.read_packed_fixed(bytes)?,\n" <:+: t := by
  refine ⟨disk [(c! "x.proto", c! "message M { repeated fixed32 ys = 4 [packed = true]; }")] [],
    { inFile := c! "x.proto", outFile := c! "x.rs", cfg := { dontUseCow := true } },
    ((writeProto [] 1 { inFile := c! "x.proto", outFile := c! "x.rs", cfg := { dontUseCow := true } }
      (disk [(c! "x.proto", c! "message M { repeated fixed32 ys = 4 [packed = true]; }")] [])).2.file (c! "x.rs")).getD [],
    rfl, by decide +kernel, by decide +kernel, by decide +kernel, by decide +kernel⟩

end QP.Rust
