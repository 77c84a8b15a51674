import Verif.Spec.Nameless
import Verif.Props.Options
set_option linter.unusedVariables false
/-!
# Names are not on the wire (C124)
-/

namespace QP.Pbrs

theorem namelessAll_map : ∀ ms : List Message, Message.namelessAll ms = ms.map Message.nameless
  | [] => rfl
  | m :: ms => congrArg (m.nameless :: ·) (namelessAll_map ms)

theorem nameless_messages (m : Message) : m.nameless.messages = m.messages.map Message.nameless := by
  cases m; exact namelessAll_map _

theorem nameless_descend : ∀ (is : List Nat) (m : Message), m.nameless.descend is = (m.descend is).map Message.nameless
  | [], m => rfl
  | i :: is, m => by
    rw [Message.descend, Message.descend, nameless_messages, List.getElem?_map]
    cases m.messages[i]? with
    | none => rfl
    | some n => exact nameless_descend is n

theorem nameless_getMessage (D : FileDescriptor) (i : MessageIndex) : D.nameless.getMessage i = (D.getMessage i).map Message.nameless := by
  cases i with
  | nil => rfl
  | cons i is =>
    rw [FileDescriptor.getMessage, FileDescriptor.getMessage]
    show ((Message.namelessAll D.messages)[i]?.bind fun m => m.descend is) = _
    rw [namelessAll_map, List.getElem?_map]
    cases D.messages[i]? with
    | none => rfl
    | some n => exact nameless_descend is n

theorem nameless_enums (m : Message) : m.nameless.enums = m.enums.map Enumerator.nameless := by cases m; rfl
theorem nameless_fields (m : Message) : m.nameless.fields = m.fields.map Field.nameless := by cases m; rfl
theorem nameless_oneofs (m : Message) : m.nameless.oneofs = m.oneofs.map OneOf.nameless := by cases m; rfl

theorem nameless_getEnum (D : FileDescriptor) (e : EnumIndex) : D.nameless.getEnum e = (D.getEnum e).map Enumerator.nameless := by
  unfold FileDescriptor.getEnum
  split
  · show (D.enums.map Enumerator.nameless)[e.index]? = _
    rw [List.getElem?_map]
  · rw [nameless_getMessage]
    cases D.getMessage e.msgIndex with
    | none => rfl
    | some m =>
      show m.nameless.enums[e.index]? = (m.enums[e.index]?).map _
      rw [nameless_enums, List.getElem?_map]

mutual
theorem nameless_unit : ∀ m : Message, m.nameless.isUnit = m.isUnit
  | ⟨name, fields, oneofs, nums, names, imported, pkg, messages, enums, module, index⟩ => by
    show ((fields.map _).isEmpty && (oneofs.map _).isEmpty && Message.allUnit (Message.namelessAll messages)) = (fields.isEmpty && oneofs.isEmpty && Message.allUnit messages)
    rw [nameless_allUnit messages, List.isEmpty_map, List.isEmpty_map]
theorem nameless_allUnit : ∀ ms : List Message, Message.allUnit (Message.namelessAll ms) = Message.allUnit ms
  | [] => rfl
  | m :: ms => by
    show (m.nameless.isUnit && Message.allUnit (Message.namelessAll ms)) = (m.isUnit && Message.allUnit ms)
    rw [nameless_unit m, nameless_allUnit ms]
end

theorem sameField_of {f g : Field} (h : g.nameless = f.nameless) : SameField f g := by
  obtain ⟨n1, fr1, t1, k1, d1, p1, b1, x1⟩ := f
  obtain ⟨n2, fr2, t2, k2, d2, p2, b2, x2⟩ := g
  unfold Field.nameless at h
  simp only [Field.mk.injEq] at h
  obtain ⟨_, rfl, rfl, rfl, hd, rfl, rfl, rfl⟩ := h
  refine ⟨rfl, rfl, ?_⟩
  have := congrArg Option.isSome hd
  rw [Option.isSome_map, Option.isSome_map] at this
  exact this.symm

theorem sameFields_of : ∀ {l l' : List Field}, l'.map Field.nameless = l.map Field.nameless → List.Forall₂ SameField l l'
  | [], [], _ => .nil
  | [], _ :: _, h => by cases h
  | _ :: _, [], h => by cases h
  | f :: l, g :: l', h => by
    injection h with h1 h2
    exact .cons (sameField_of h1) (sameFields_of h2)

theorem sameOneofs_of : ∀ {l l' : List OneOf}, l'.map OneOf.nameless = l.map OneOf.nameless → List.Forall₂ (List.Forall₂ SameField) (l.map (·.fields)) (l'.map (·.fields))
  | [], [], _ => .nil
  | [], _ :: _, h => by cases h
  | _ :: _, [], h => by cases h
  | o :: l, o' :: l', h => by
    injection h with h1 h2
    exact .cons (sameFields_of (congrArg OneOf.fields h1)) (sameOneofs_of h2)

end QP.Pbrs

namespace QP.Gen
open QP.Pbrs

/-- Two schemas that differ only in names describe the same functions. -/
theorem same_nameless {C C' : Ctx} (h : C'.D.nameless = C.D.nameless) (hsz : WellFounded (fun j i => Contains C.D i j)) (hT : C.T = C'.T)
    (hdep : C.cfg.addDeprecatedFields = C'.cfg.addDeprecatedFields) (hR : RefsOk C.D) (hd : IsDefault C) (hd' : IsDefault C') (hK : SameConstants C C') :
    SameCtx C C' := by
  have hM : ∀ i, (C'.D.getMessage i).map Message.nameless = (C.D.getMessage i).map Message.nameless := fun i => by
    rw [← nameless_getMessage, ← nameless_getMessage, h]
  refine same_pairs (fun e => ?_) (congrArg FileDescriptor.syntax_ h).symm (fun i => ?_) (fun i m m' hm hm' => ?_) hsz hT hdep hR hd hd' hK
  · have he : (C'.D.getEnum e).map Enumerator.nameless = (C.D.getEnum e).map Enumerator.nameless := by
      rw [← nameless_getEnum, ← nameless_getEnum, h]
    unfold Ctx.enumNums
    cases hx : C.D.getEnum e with
    | none =>
      cases hy : C'.D.getEnum e with
      | none => rfl
      | some y => rw [hx, hy] at he; cases he
    | some x =>
      cases hy : C'.D.getEnum e with
      | none => rw [hx, hy] at he; cases he
      | some y =>
        rw [hx, hy] at he
        have he := congrArg (fun e : Enumerator => e.fields.map (·.2)) (Option.some.inj he)
        have he : ((y.fields.map fun p => (([] : Str), p.2)).map (·.2)) = ((x.fields.map fun p => (([] : Str), p.2)).map (·.2)) := he
        rw [List.map_map, List.map_map] at he
        have he : y.fields.map (·.2) = x.fields.map (·.2) := he
        have key : ∀ l : List (Str × Int), l.map (fun p => BitVec.ofInt 32 p.2) = (l.map (·.2)).map (BitVec.ofInt 32) := fun l => by rw [List.map_map]; rfl
        show x.fields.map (fun p => BitVec.ofInt 32 p.2) = y.fields.map (fun p => BitVec.ofInt 32 p.2)
        rw [key, key, he]
  · have := hM i
    cases hx : C.D.getMessage i <;> cases hy : C'.D.getMessage i <;> rw [hx, hy] at this <;> simp_all
  · have := hM i
    rw [hm, hm'] at this
    have this := Option.some.inj this
    refine ⟨?_, sameFields_of ?_, sameOneofs_of ?_⟩
    · rw [← nameless_unit m, ← nameless_unit m', this]
    · rw [← nameless_fields, ← nameless_fields, this]
    · rw [← nameless_oneofs, ← nameless_oneofs, this]

end QP.Gen

namespace QP.Rust
open QP.Pbrs QP.Gen

/-- A compiled schema, and what is known of it. -/
theorem compiled_facts {n : Nat} {j : Job} {d : Disk} {D E : FileDescriptor} (hr : readProtoFile d.file j.search n j.inFile = .ok D) (hE : j.compiled n d = some E)
    (hf : NoNestedMaps D) : RefsOk E ∧ WellFounded (fun j i => Contains E i j) := by
  obtain ⟨D₁, h₁, e₁⟩ := compiled_compile hr hE
  constructor
  · obtain ⟨_, hR', _⟩ := C65_compiled (parsed_owned j.cfg.owned (C68_parsed hr hf)) h₁
    rw [e₁]
    intro i m hg f hf'
    rw [printed_get] at hg
    exact ⟨fun k hk => by rw [printed_get]; exact (hR' i m hg f hf').1 k hk, (hR' i m hg f hf').2⟩
  · have := compile_allSized h₁
    have h2 : ∀ i k, Contains E i k ↔ Contains D₁ i k := by
      intro i k
      unfold Contains
      rw [e₁]
      simp only [printed_get]
    have h3 : (fun k i => Contains E i k) = fun k i => Contains D₁ i k := by
      funext k i
      exact propext (h2 i k)
    rw [h3]
    exact this

/-- **C124.** Two schemas (of two files, perhaps, and with different options) that differ only in names, and of which one has been compiled. The messages at the same
places have the same values; the generated functions for them write the same bytes, read every input as the same value or fail in the same way, and have the same
default. -/
theorem C124_functions {n : Nat} {j : Job} {d : Disk} {D : FileDescriptor} (hr : readProtoFile d.file j.search n j.inFile = .ok D) (hf : NoNestedMaps D)
    {C C' : Ctx} (hE : j.compiled n d = some C.D) (h : C'.D.nameless = C.D.nameless) (hT : C.T = C'.T)
    (hdep : C.cfg.addDeprecatedFields = C'.cfg.addDeprecatedFields) (hd : IsDefault C) (hd' : IsDefault C') (hK : SameConstants C C') :
    (∀ k i v, WellTyped C AnyValue k i v ↔ WellTyped C' AnyValue k i v) ∧ writeImpl C = writeImpl C' ∧ fromReader C = fromReader C' ∧
      ∀ i m, C.D.getMessage i = some m → C.dflt i = C'.dflt i := by
  obtain ⟨hR, hsz⟩ := compiled_facts hr hE hf
  have h := same_nameless h hsz hT hdep hR hd hd' hK
  exact ⟨wellTyped_same h, funext (writeImpl_same h), funext (fromReader_same h), fun i m hm => h.dflt i m hm⟩

/-- **C124.** Two runs of pb-rs, on files whose compiled schemas differ only in names. Both outputs have the items of a program, and these two programs have, for the
messages at the same places, the same default and the same values, write the same bytes, and read every input as the same value or fail in the same way. -/
theorem C124_programs {junk₁ junk₂ : Str} {n₁ n₂ : Nat} {j₁ j₂ : Job} {d₁ d₁' d₂ d₂' : Disk} {D₁ D₂ E₁ E₂ : FileDescriptor} (hn₁ : j₁.noOutput = false)
    (hn₂ : j₂.noOutput = false) (h₁ : writeProto junk₁ n₁ j₁ d₁ = (.ok (), d₁')) (h₂ : writeProto junk₂ n₂ j₂ d₂ = (.ok (), d₂'))
    (hr₁ : readProtoFile d₁.file j₁.search n₁ j₁.inFile = .ok D₁) (hr₂ : readProtoFile d₂.file j₂.search n₂ j₂.inFile = .ok D₂)
    (hdep : j₁.cfg.addDeprecatedFields = j₂.cfg.addDeprecatedFields) (hf₁ : NoNestedMaps D₁) (hN₁ : Numbered D₁) (hK₁ : NestedPackedOk D₁)
    (hf₂ : NoNestedMaps D₂) (hN₂ : Numbered D₂) (hK₂ : NestedPackedOk D₂)
    (hE₁ : j₁.compiled n₁ d₁ = some E₁) (hE₂ : j₂.compiled n₂ d₂ = some E₂) (hnames : E₂.nameless = E₁.nameless)
    (hI₁ : ∀ t ∈ E₁.messages, t.imported = true → ∃ x, t.write E₁ j₁.cfg = .ok x) (hI₂ : ∀ t ∈ E₂.messages, t.imported = true → ∃ x, t.write E₂ j₂.cfg = .ok x)
    (hX₁ : Distinct E₁ j₁.cfg) (hX₂ : Distinct E₂ j₂.cfg)
    (hcow₁ : ∀ i m, E₁.getMessage i = some m → ∀ f ∈ m.fields, f.visible j₁.cfg = true → isPackedFixed f = true → j₁.cfg.dontUseCow = false)
    (hcow₂ : ∀ i m, E₂.getMessage i = some m → ∀ f ∈ m.fields, f.visible j₂.cfg = true → isPackedFixed f = true → j₂.cfg.dontUseCow = false)
    {K₁ K₂ : Ty → Str → RVal} (hL₁ : Literals E₁ j₁.cfg K₁) (hL₂ : Literals E₂ j₂.cfg K₂) (hS : SameDefaults E₁ j₁.cfg K₁ E₂ j₂.cfg K₂) (T : Target) :
    ∃ p₁ t₁ C₁ P₁ dflt₁ p₂ t₂ C₂ P₂ dflt₂, j₁.out n₁ d₁ = some p₁ ∧ d₁'.file p₁ = some (Doc.str t₁) ∧ j₂.out n₂ d₂ = some p₂ ∧ d₂'.file p₂ = some (Doc.str t₂) ∧
      (C₁.T = T ∧ C₁.D = E₁ ∧ C₁.cfg = j₁.cfg ∧ Generates C₁ P₁ dflt₁ ∧ P₁.IsDefault T dflt₁ ∧ P₁.const = K₁) ∧
      (C₂.T = T ∧ C₂.D = E₂ ∧ C₂.cfg = j₂.cfg ∧ Generates C₂ P₂ dflt₂ ∧ P₂.IsDefault T dflt₂ ∧ P₂.const = K₂) ∧
      (∀ i is t m, E₁.messages[i]? = some t → t.imported = false → E₁.getMessage (i :: is) = some m →
        ∃ s l, P₁.structs (messagePath E₁ m) = some s ∧ HasStruct t₁ m.name m.isUnit l (deprecations j₁.cfg m) s ∧
          ∀ o ∈ m.oneofs, ∃ l vs, P₁.oneofs (oneofPath E₁ o) = some vs ∧ HasOneof t₁ o.name l ((o.shown j₁.cfg).map (·.deprecated)) vs) ∧
      (∀ i is t m, E₂.messages[i]? = some t → t.imported = false → E₂.getMessage (i :: is) = some m →
        ∃ s l, P₂.structs (messagePath E₂ m) = some s ∧ HasStruct t₂ m.name m.isUnit l (deprecations j₂.cfg m) s ∧
          ∀ o ∈ m.oneofs, ∃ l vs, P₂.oneofs (oneofPath E₂ o) = some vs ∧ HasOneof t₂ o.name l ((o.shown j₂.cfg).map (·.deprecated)) vs) ∧
      ∀ i m₁, E₁.getMessage i = some m₁ → ∃ m₂, E₂.getMessage i = some m₂ ∧
        dflt₁ (messagePath E₁ m₁) = dflt₂ (messagePath E₂ m₂) ∧
        (∀ fuel, P₁.fromReader T dflt₁ fuel (messagePath E₁ m₁) = P₂.fromReader T dflt₂ fuel (messagePath E₂ m₂)) ∧
        ∀ k v, (WellTyped C₁ AnyValue k i v ↔ WellTyped C₂ AnyValue k i v) ∧ (WellTyped C₁ AnyValue k i v →
          (P₁.writeImpl T dflt₁ k (messagePath E₁ m₁)).get_size v = (P₂.writeImpl T dflt₂ k (messagePath E₂ m₂)).get_size v ∧
          ∀ (σ : Type) [WriterBackend σ], (P₁.writeImpl T dflt₁ k (messagePath E₁ m₁)).write_message v σ = (P₂.writeImpl T dflt₂ k (messagePath E₂ m₂)).write_message v σ) := by
  obtain ⟨p₁, t₁, C₁, P₁, dflt₁, a1, a2, a3, a4, a5, a6, G₁, aD, aS, aP, _, a7⟩ := run_program hn₁ h₁ hr₁ hf₁ hN₁ hK₁ hE₁ hI₁ hX₁ hcow₁ hL₁ T
  obtain ⟨p₂, t₂, C₂, P₂, dflt₂, b1, b2, b3, b4, b5, b6, G₂, bD, bS, bP, _, b7⟩ := run_program hn₂ h₂ hr₂ hf₂ hN₂ hK₂ hE₂ hI₂ hX₂ hcow₂ hL₂ T
  have hnm : C₂.D.nameless = C₁.D.nameless := by rw [a4, b4]; exact hnames
  have hM : ∀ i, (C₂.D.getMessage i).map Message.nameless = (C₁.D.getMessage i).map Message.nameless := fun i => by
    rw [← nameless_getMessage, ← nameless_getMessage, hnm]
  have hC : SameConstants C₁ C₂ := by
    intro i m m' k f g s s' e1 e2 e3 e4 e5 e6 e7
    have hv : g.visible C₂.cfg = true := by
      have hm := hM i
      rw [e1, e2] at hm
      have hm := congrArg Message.fields (Option.some.inj hm)
      rw [nameless_fields, nameless_fields] at hm
      have hg := congrArg (fun l : List Field => l[k]?) hm
      simp only [List.getElem?_map, e3, e4, Option.map_some, Option.some.injEq] at hg
      have hd : g.nameless.deprecated = f.nameless.deprecated := congrArg Field.deprecated hg
      have hd : g.deprecated = f.deprecated := hd
      rw [Field.visible, hd, b5, ← hdep, ← a5]
      exact e5
    rw [generates_const G₁ e1 (List.mem_of_getElem? e3) e5 e6, generates_const G₂ e2 (List.mem_of_getElem? e4) hv e7, a4, a5, a6, b4, b5, b6]
    exact hS i m m' k f g s s' (by rw [← a4]; exact e1) (by rw [← b4]; exact e2) e3 e4 e6 e7
  obtain ⟨c1, c2, c3, c4⟩ := C124_functions hr₁ hf₁ (C := C₁) (C' := C₂) (by rw [a4]; exact hE₁) hnm (a3.trans b3.symm) (by rw [a5, b5]; exact hdep)
    (C78_default G₁ aS aP (by rw [a3]; exact aD)) (C78_default G₂ bS bP (by rw [b3]; exact bD)) hC
  refine ⟨p₁, t₁, C₁, P₁, dflt₁, p₂, t₂, C₂, P₂, dflt₂, a1, a2, b1, b2, ⟨a3, a4, a5, G₁, aD, a6⟩, ⟨b3, b4, b5, G₂, bD, b6⟩, a7, b7, ?_⟩
  intro i m₁ hm₁
  have g₁ : C₁.D.getMessage i = some m₁ := by rw [a4]; exact hm₁
  have hm := hM i
  rw [g₁] at hm
  cases g₂ : C₂.D.getMessage i with
  | none => rw [g₂] at hm; cases hm
  | some m₂ =>
    refine ⟨m₂, by rw [← b4]; exact g₂, ?_, ?_, ?_⟩
    · rw [← a4, ← b4, G₁.default i m₁ g₁, G₂.default i m₂ g₂]
      exact c4 i m₁ g₁
    · intro fuel
      have r₁ := C78_read G₁ aS aP (by rw [a3]; exact aD) fuel i m₁ g₁
      have r₂ := C78_read G₂ bS bP (by rw [b3]; exact bD) fuel i m₂ g₂
      rw [a3, a4] at r₁
      rw [b3, b4] at r₂
      rw [r₁, r₂, c3]
    · intro k v
      refine ⟨c1 k i v, fun hv => ?_⟩
      obtain ⟨r1, r2⟩ := C78_write G₁ aS aP k i m₁ g₁ v hv
      obtain ⟨s1, s2⟩ := C78_write G₂ bS bP k i m₂ g₂ v ((c1 k i v).mp hv)
      rw [a3, a4] at r1 r2
      rw [b3, b4] at s1 s2
      exact ⟨by rw [r1, s1, c2], fun σ _ => by rw [r2 σ, s2 σ, c2]⟩

end QP.Rust

namespace QP.Pbrs

mutual
/-- Are two messages the same? -/
def Message.eqB : Message → Message → Bool
  | ⟨a1, a2, a3, a4, a5, a6, a7, a8, a9, a10, a11⟩, ⟨b1, b2, b3, b4, b5, b6, b7, b8, b9, b10, b11⟩ =>
    decide (a1 = b1 ∧ a2 = b2 ∧ a3 = b3 ∧ a4 = b4 ∧ a5 = b5 ∧ a6 = b6 ∧ a7 = b7 ∧ a9 = b9 ∧ a10 = b10 ∧ a11 = b11) && Message.eqAllB a8 b8
def Message.eqAllB : List Message → List Message → Bool
  | [], [] => true
  | a :: as, b :: bs => a.eqB b && Message.eqAllB as bs
  | _, _ => false
end

mutual
theorem eqB_eq : ∀ {a b : Message}, a.eqB b = true → a = b
  | ⟨a1, a2, a3, a4, a5, a6, a7, a8, a9, a10, a11⟩, ⟨b1, b2, b3, b4, b5, b6, b7, b8, b9, b10, b11⟩, h => by
    unfold Message.eqB at h
    rw [Bool.and_eq_true, decide_eq_true_eq] at h
    obtain ⟨⟨rfl, rfl, rfl, rfl, rfl, rfl, rfl, rfl, rfl, rfl⟩, h⟩ := h
    rw [eqAllB_eq h]
theorem eqAllB_eq : ∀ {a b : List Message}, Message.eqAllB a b = true → a = b
  | [], [], _ => rfl
  | [], _ :: _, h => by cases h
  | _ :: _, [], h => by cases h
  | a :: as, b :: bs, h => by
    unfold Message.eqAllB at h
    rw [Bool.and_eq_true] at h
    rw [eqB_eq h.1, eqAllB_eq h.2]
end

/-- Are two schemas the same without their names? -/
def namelessB (D D' : FileDescriptor) : Bool :=
  decide (D.syntax_ = D'.syntax_ ∧ D.enums.map Enumerator.nameless = D'.enums.map Enumerator.nameless) &&
    Message.eqAllB (Message.namelessAll D.messages) (Message.namelessAll D'.messages)

theorem nameless_of {D D' : FileDescriptor} (h : namelessB D D' = true) : D.nameless = D'.nameless := by
  unfold namelessB at h
  rw [Bool.and_eq_true, decide_eq_true_eq] at h
  unfold FileDescriptor.nameless
  rw [h.1.1, h.1.2, eqAllB_eq h.2]

end QP.Pbrs

namespace QP.Rust
open QP.Pbrs QP.Gen

namespace NamelessExample
open RunExample OptionsExample

/-- The message of Props/Options.lean with other names, in a package. -/
def renamed : Str := c! "package de.knoten; message Knoten { required int32 nummer = 1 [default = 42]; optional string type = 2 [default = \"x\"]; repeated sint32 ys_ = 4 [packed = true]; map<string, bytes> werte = 6; optional Knoten kind = 7; oneof wahl { bool ja = 16; string nein = 17; } }"

def after : Disk := disk [(c! "ex.proto", renamed)] [c! "b"]

/-- A run on one of the files below meets the conditions of `C124_programs`. -/
theorem conditions {j : Job} {d : Disk} (h0 : (writeProto [] 1 j d).1.isOk = true) (h2 : (match j.compiled 1 d with | some E => okPrinted j E | none => false) = true) : ∃ E d', writeProto [] 1 j d = (.ok (), d') ∧ j.compiled 1 d = some E ∧
    (∀ t ∈ E.messages, t.imported = true → ∃ x, t.write E j.cfg = .ok x) ∧ Distinct E j.cfg ∧
    (∀ i m, E.getMessage i = some m → ∀ f ∈ m.fields, f.visible j.cfg = true → isPackedFixed f = true → j.cfg.dontUseCow = false) ∧
    Literals E j.cfg lits ∧ (∃ m, E.getMessage [0] = some m) ∧
    ∀ i m, E.getMessage i = some m → ∀ f ∈ m.fields, ∀ s, f.default = some s →
      (f.typ = .int32 ∧ s = c! "42i32") ∨ (f.typ = .stringCow ∧ s = c! "Cow::Borrowed(\"x\")") ∨ (f.typ = .string_ ∧ s = c! "\"x\"") := by
  cases hE : j.compiled 1 d with
  | none => rw [hE] at h2; cases h2
  | some E =>
    rw [hE] at h2
    cases hw : writeProto [] 1 j d with
    | mk r d' =>
      rw [hw] at h0
      cases r with
      | error e => cases h0
      | ok u =>
        have h2 : okPrinted j E = true := h2
        unfold okPrinted at h2
        simp only [Bool.and_eq_true, decide_eq_true_eq] at h2
        obtain ⟨⟨⟨⟨a1, a2⟩, a3⟩, a4⟩, a5⟩ := h2
        have a4 := fun i m hm => a4 (i, m) ((mem_preorder_file E i m).mpr hm)
        have key : ∀ i m, E.getMessage i = some m → ∀ f ∈ m.fields, ∀ s, f.default = some s →
            (f.typ = .int32 ∧ s = c! "42i32") ∨ (f.typ = .stringCow ∧ s = c! "Cow::Borrowed(\"x\")") ∨ (f.typ = .string_ ∧ s = c! "\"x\"") := by
          intro i m hm f hf s hs
          have := (a4 i m hm f hf).2 (by rw [hs]; rfl)
          rw [hs] at this
          simpa only [Option.some.injEq] using this
        refine ⟨E, d', rfl, rfl, fun t ht hi => ?_, distinct_of a1, ?_, ⟨?_, ?_⟩, Option.isSome_iff_exists.mp a5, ?_⟩
        · rw [a2 t ht] at hi; cases hi
        · intro i m hm f hf _ hp
          rw [(a4 i m hm f hf).1] at hp
          cases hp
        · intro e en s he hs
          have := mem_enumList he
          rw [List.isEmpty_iff.mp a3] at this
          cases this
        · intro idx m hm f hf s hs _ _ C hC
          rcases key idx m hm f hf s hs with ⟨h, rfl⟩ | ⟨h, rfl⟩ | ⟨h, rfl⟩ <;> rw [h]
          · exact ⟨_, rfl⟩
          · exact ⟨_, rfl, [0x78], by simp [Spec.scalar], rfl⟩
          · exact ⟨_, rfl, [0x78], by simp [Spec.scalar], rfl⟩
        · exact key

/-- **C124.** The two files give programs with the structs `Node` and `Knoten`, which read every input alike. -/
theorem C124_example (T : Target) : ∃ (d₁' d₂' : Disk) (E₁ E₂ : FileDescriptor) (p₁ : Str) (t₁ : Doc) (P₁ : Prog) (dflt₁ : Path → RVal) (p₂ : Str) (t₂ : Doc) (P₂ : Prog)
    (dflt₂ : Path → RVal) (m₁ m₂ : Message), writeProto [] 1 job₁ before = (.ok (), d₁') ∧
    writeProto [] 1 job₁ after = (.ok (), d₂') ∧ d₁'.file p₁ = some (Doc.str t₁) ∧ d₂'.file p₂ = some (Doc.str t₂) ∧
    E₁.getMessage [0] = some m₁ ∧ E₂.getMessage [0] = some m₂ ∧ m₁.name = c! "Node" ∧ m₂.name = c! "Knoten" ∧ (P₁.structs (messagePath E₁ m₁)).isSome = true ∧
    (P₂.structs (messagePath E₂ m₂)).isSome = true ∧ P₁.IsDefault T dflt₁ ∧ P₂.IsDefault T dflt₂ ∧
    ∀ fuel, P₁.fromReader T dflt₁ fuel (messagePath E₁ m₁) = P₂.fromReader T dflt₂ fuel (messagePath E₂ m₂) := by
  obtain ⟨E₁, d₁', a1, a2, a3, a4, a5, a6, ⟨m₁, a7⟩, a8⟩ := conditions (j := job₁) (d := before) (by decide +kernel) (by decide +kernel)
  obtain ⟨E₂, d₂', b1, b2, b3, b4, b5, b6, _, b8⟩ := conditions (j := job₁) (d := after) (by decide +kernel) (by decide +kernel)
  have h1 : (match readProtoFile before.file job₁.search 1 job₁.inFile with | .ok D => okRead D | .error _ => false) = true := by decide +kernel
  have h2 : (match readProtoFile after.file job₁.search 1 job₁.inFile with | .ok D => okRead D | .error _ => false) = true := by decide +kernel
  have h3 : (match job₁.compiled 1 before, job₁.compiled 1 after with
      | some E₁, some E₂ => namelessB E₂ E₁ && (E₁.getMessage [0]).map (·.name) == some (c! "Node") && (E₂.getMessage [0]).map (·.name) == some (c! "Knoten")
      | _, _ => false) = true := by decide +kernel
  rw [a2, b2] at h3
  simp only [Bool.and_eq_true, beq_iff_eq] at h3
  obtain ⟨⟨h3, n1⟩, n2⟩ := h3
  cases hD₁ : readProtoFile before.file job₁.search 1 job₁.inFile with
  | error e => rw [hD₁] at h1; cases h1
  | ok D₁ =>
  cases hD₂ : readProtoFile after.file job₁.search 1 job₁.inFile with
  | error e => rw [hD₂] at h2; cases h2
  | ok D₂ =>
    rw [hD₁] at h1
    rw [hD₂] at h2
    have h1 : okRead D₁ = true := h1
    have h2 : okRead D₂ = true := h2
    unfold okRead at h1 h2
    simp only [decide_eq_true_eq] at h1 h2
    have h1 := fun i m hm => h1 (i, m) ((mem_preorder_file D₁ i m).mpr hm)
    have h2 := fun i m hm => h2 (i, m) ((mem_preorder_file D₂ i m).mpr hm)
    have hS : SameDefaults E₁ job₁.cfg lits E₂ job₁.cfg lits := by
      intro i m m' k f g s s' e1 e2 e3 e4 e5 e6
      have hm := nameless_getMessage E₁ i
      rw [← nameless_of h3, nameless_getMessage, e1, e2] at hm
      have hm := congrArg Message.fields (Option.some.inj hm)
      rw [nameless_fields, nameless_fields] at hm
      have hg := congrArg (fun l : List Field => l[k]?) hm
      simp only [List.getElem?_map, e3, e4, Option.map_some, Option.some.injEq] at hg
      have ht : g.nameless.typ = f.nameless.typ := congrArg Field.typ hg
      have ht : g.typ = f.typ := ht
      have x1 := a8 i m e1 f (List.mem_of_getElem? e3) s e5
      have x2 := b8 i m' e2 g (List.mem_of_getElem? e4) s' e6
      rw [ht] at x2
      rw [ht]
      rcases x1 with ⟨h, rfl⟩ | ⟨h, rfl⟩ | ⟨h, rfl⟩ <;> rcases x2 with ⟨h', rfl⟩ | ⟨h', rfl⟩ | ⟨h', rfl⟩ <;> rw [h] at h' ⊢ <;>
        first | rfl | (cases h'; done)
    obtain ⟨p₁, t₁, C₁, P₁, dflt₁, p₂, t₂, C₂, P₂, dflt₂, _, x2, _, x4, x5, x6, _, _, x9⟩ := C124_programs rfl rfl a1 b1 hD₁ hD₂ rfl
      (fun i m hm => (h1 i m hm).1) ⟨fun i m hm => (h1 i m hm).2.1, fun i m hm => (h1 i m hm).2.2.1⟩
      (fun i m hi hm f hf hp => absurd hp ((h1 i m hm).2.2.2 hi f hf))
      (fun i m hm => (h2 i m hm).1) ⟨fun i m hm => (h2 i m hm).2.1, fun i m hm => (h2 i m hm).2.2.1⟩
      (fun i m hi hm f hf hp => absurd hp ((h2 i m hm).2.2.2 hi f hf)) a2 b2 (nameless_of h3) a3 b3 a4 b4 a5 b5 a6 b6 hS T
    obtain ⟨m₂, q1, _, q5, _⟩ := x9 [0] m₁ a7
    obtain ⟨_, y2, _, y4, y5, _⟩ := x5
    obtain ⟨_, z2, _, z4, z5, _⟩ := x6
    obtain ⟨s₁, _, hs₁⟩ := y4.structs [0] m₁ (by rw [y2]; exact a7)
    obtain ⟨s₂, _, hs₂⟩ := z4.structs [0] m₂ (by rw [z2]; exact q1)
    rw [y2] at hs₁
    rw [z2] at hs₂
    rw [a7] at n1
    rw [q1] at n2
    exact ⟨d₁', d₂', E₁, E₂, p₁, t₁, P₁, dflt₁, p₂, t₂, P₂, dflt₂, m₁, m₂, a1, b1, x2, x4, a7, q1, Option.some.inj n1, Option.some.inj n2, by rw [hs₁]; rfl,
      by rw [hs₂]; rfl, y5, z5, q5⟩

end NamelessExample

end QP.Rust
