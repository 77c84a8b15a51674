import Verif.Props.Compat
/-!
# C37 – C43: proto3 defaults, floats, enums, packed fields, deprecated fields, oneofs
-/

set_option linter.unusedVariables false

namespace QP.Gen
open QP.Pbrs Spec BytesReader

/-! ## C37 -/

/-- **C37**, writing. A singular field without presence and without a `default` option writes nothing if and only
if its value is the zero of its type (or `-0.0`). -/
theorem C37_elided_iff (C : Ctx) (hT : C.T.bigEndian = false) (hS : SchemaOk C) (n : Nat) (f : Field) (hf : FieldOk f)
    (hg : f.frequency.generated = .singular) (hp : f.hasPresence = false) (hd : f.default = Option.none) (v : RVal)
    (hv : HasType C (WellTyped C AnyValue n) f.typ v)
    (hsz : sizeMember C (writeImpl C n) (.field f) v < 2 ^ 64) :
    ∃ enc, Emits (fun W _ => writeMember C (writeImpl C n) (.field f) v) enc ∧
      sizeMember C (writeImpl C n) (.field f) v = enc.length ∧
      (enc = [] ↔ v = typDefault C f.typ ∨ (f.typ = .float ∧ v = .w32 0x80000000#32) ∨
        (f.typ = .double ∧ v = .w64 0x8000000000000000#64)) := by
  have ho : f.frequency.isOptional = false := by
    cases h : f.frequency.isOptional
    · rfl
    · rw [hasPresence_optional hf h] at hp; cases hp
  have hdef : fieldDefault C f = typDefault C f.typ := by unfold fieldDefault; rw [hd]
  have hw : ∀ (W : Type) [WriterBackend W], writeMember C (writeImpl C n) (.field f) v =
      (if scalarEq f.typ v (typDefault C f.typ) then pure () else write_with_tag f.tag (writeTyp (writeImpl C n) f.typ v) : SM W Unit) := by
    intro W _
    simp only [writeMember, writeField, hg, hp, ho, hdef]
  have hs : sizeMember C (writeImpl C n) (.field f) v =
      if scalarEq f.typ v (typDefault C f.typ) then 0 else sizeofVarint f.tag + sizeTyp (writeImpl C n) f.typ v := by
    simp only [sizeMember, sizeField, hg, hp, ho, hdef]
  have hnm : ¬ ∃ m, f.typ = .message m := by
    rintro ⟨m, hm⟩
    unfold Field.hasPresence at hp
    rw [hm] at hp
    cases hq : f.frequency <;> rw [hq] at hp hg <;>
      simp [FieldType.isMap, FieldType.asMessage, Frequency.generated, Frequency.isMap, Frequency.isRepeated] at hp hg
  cases he : scalarEq f.typ v (typDefault C f.typ)
  · rw [he] at hs
    simp only [Bool.false_eq_true, if_false] at hs
    have hok := tagged_ok (C := C) (sub := WellTyped C AnyValue n) (wr := writeImpl C n) (enc := encMsg C n)
      (fun m v hv hlt => writeImpl_ok hT hS n m v hv hlt) hf.number hv
    obtain ⟨h1, h2⟩ := hok (by rw [← hs]; exact hsz)
    refine ⟨_, h2.congr (fun W _ => by simp only [hw, he, Bool.false_eq_true, if_false]) rfl, by rw [hs, h1], ?_⟩
    constructor
    · intro h
      have := length_varint_pos (fieldTag f)
      have h := congrArg List.length h
      simp only [List.length_append, List.length_nil] at h
      omega
    · intro h
      exfalso
      rcases h with h | ⟨h1, h2⟩ | ⟨h1, h2⟩
      · rw [h] at he hv
        cases ht : f.typ <;> rw [ht] at he hv <;>
          simp_all [typDefault, scalarEq, HasType, f32Eq, f64Eq] <;> revert he <;> decide
      · rw [h1, h2] at he; exact absurd he (by simp only [typDefault]; decide)
      · rw [h1, h2] at he; exact absurd he (by simp only [typDefault]; decide)
  · rw [he] at hs
    refine ⟨[], Emits.nil.congr (fun W _ => by simp only [hw, he, if_true]) rfl, by rw [hs]; rfl, ?_⟩
    simp only [true_iff]
    rcases scalarEq_default he with h | h | h | h
    · exact (hnm h).elim
    · exact Or.inl h
    · exact Or.inr (Or.inl h)
    · exact Or.inr (Or.inr h)

/-- **C37**, reading, for fields without a `default` option: when the field does not occur on the wire, the zero of
its type is decoded. With `C37_elided_iff`: what was elided is restored, except that `-0.0` becomes `0.0`. Missing
for the full property: that exception, and `default` options (`C37_custom_default_lost`). -/
theorem C37_zero_restored_partial (C : Ctx) (hS : SchemaOk C) (hD : IsDefault C) (idx : MessageIndex) (m : Message)
    (hm : C.D.getMessage idx = Option.some m) (j : Nat) (f : Field)
    (hj : (members C.cfg m)[j]? = Option.some (.field f)) (hg : f.frequency.generated = .singular)
    (hp : f.hasPresence = false) (hd : f.default = Option.none) (b : Bytes) (us : List (Option Item))
    (hb : Parses (Record C (Denotes C) m) b us) (hno : ∀ it, Option.some it ∈ us → it.1.slot ≠ j)
    (hl : b.length < 2 ^ C.T.usizeBits) :
    ∃ slots, decode C idx b = .ok (.struct slots) ∧ slots[j]? = Option.some (typDefault C f.typ) := by
  obtain ⟨slots, h1, h2⟩ := C36_absent C hS hD idx m hm j _ hj b us hb hno hl
  have hf := (hS idx m hm).members (.field f) (List.mem_of_getElem? hj)
  have ho : f.frequency.isOptional = false := by
    cases h : f.frequency.isOptional
    · rfl
    · rw [hasPresence_optional hf h] at hp; cases hp
  have hbx : f.boxed = false := by
    cases h : f.boxed
    · rfl
    · rw [FieldOk.boxed hf h] at ho; cases ho
  refine ⟨slots, h1, ?_⟩
  rw [h2]
  simp [slotDefault, hbx, ho, hg, fieldDefault, hd]

namespace Example

/-- `syntax = "proto3"; message M { int32 x = 1 [default = 5]; float y = 2; }`: pb-rs accepts it. -/
def dX : Field := { name := "x".toList, frequency := .p3default, typ := .int32, number := 1, default := some "5".toList }
def dY : Field := { name := "y".toList, frequency := .p3default, typ := .float, number := 2 }
def dMsg : Message := { name := "M".toList, fields := [dX, dY], index := [0] }
def dCtx (T : Target) : Ctx :=
  { T := T, D := { syntax_ := .proto3, messages := [dMsg] }, cfg := {},
    dflt := fun _ => .struct [.w32 0, .w32 0], const := fun _ _ => .w32 5 }

theorem dGet (T : Target) (idx : MessageIndex) (m : Message)
    (h : (dCtx T).D.getMessage idx = Option.some m) : idx = [0] ∧ m = dMsg := by
  match idx with
  | [] => simp [FileDescriptor.getMessage] at h
  | [0] =>
    simp [FileDescriptor.getMessage, dCtx, Message.descend] at h
    exact ⟨rfl, h.symm⟩
  | 0 :: i :: is => simp [FileDescriptor.getMessage, dCtx, Message.descend, dMsg] at h
  | (n + 1) :: is => simp [FileDescriptor.getMessage, dCtx] at h

theorem dDefault (T : Target) : IsDefault (dCtx T) := by
  intro idx m h
  obtain ⟨rfl, rfl⟩ := dGet T idx m h
  rfl

theorem dSchema (T : Target) : SchemaOk (dCtx T) := by
  intro idx m h
  obtain ⟨rfl, rfl⟩ := dGet T idx m h
  refine ⟨?_, (by decide : ((arms {} dMsg).map (·.field.number)).Nodup)⟩
  intro mem hmem
  have : members (dCtx T).cfg dMsg = [.field dX, .field dY] := rfl
  rw [this] at hmem
  simp only [List.mem_cons, List.not_mem_nil, or_false] at hmem
  rcases hmem with rfl | rfl
  · exact ⟨by decide, by decide, by decide, by decide⟩
  · exact ⟨by decide, by decide, by decide, by decide⟩

end Example

/-- The full **C37** is false: with a `default` option on a proto3 field (pb-rs accepts and uses it when writing), the
value 5 is not written and decodes as 0. -/
theorem C37_custom_default_lost (T : Target) (hT : T.usizeBits = 64) :
    SchemaOk (Example.dCtx T) ∧ IsDefault (Example.dCtx T) ∧
    WellTyped (Example.dCtx T) AnyValue 1 [0] (.struct [.w32 5, .w32 0]) ∧
    Emits ((writeImpl (Example.dCtx T) 1 [0]).write_message (.struct [.w32 5, .w32 0])) [] ∧
    decode (Example.dCtx T) [0] [] = .ok (.struct [.w32 0, .w32 0]) := by
  refine ⟨Example.dSchema T, Example.dDefault T, ?_, ?_, rfl⟩
  · refine ⟨Example.dMsg, _, rfl, rfl, rfl, ?_⟩
    have : members (Example.dCtx T).cfg Example.dMsg = [.field Example.dX, .field Example.dY] := rfl
    rw [this]
    intro p hp
    simp only [List.zip_cons_cons, List.zip_nil_left, List.mem_cons, List.not_mem_nil, or_false] at hp
    rcases hp with rfl | rfl
    · exact ⟨⟨_, rfl⟩, fun _ => trivial⟩
    · exact ⟨⟨_, rfl⟩, fun _ => trivial⟩
  · exact Emits.nil.congr (fun W _ => rfl) rfl

/-! ## C38 -/

theorem obs_struct {s t : List RVal} (h : (RVal.struct s).obs = (RVal.struct t).obs) (j : Nat) :
    (s[j]?).map RVal.obs = (t[j]?).map RVal.obs := by
  have e : ∀ l, RVal.obsList l = l.map RVal.obs := by
    intro l; induction l with
    | nil => rfl
    | cons a l ih => simp [RVal.obsList, ih]
  simp only [RVal.obs, e, RVal.struct.injEq] at h
  rw [← List.getElem?_map, ← List.getElem?_map, h]

theorem obs_w32 {y : RVal} {x : BitVec 32} (h : y.obs = (RVal.w32 x).obs) : y = .w32 x := by
  cases y <;> simp_all [RVal.obs]
theorem obs_w64 {y : RVal} {x : BitVec 64} (h : y.obs = (RVal.w64 x).obs) : y = .w64 x := by
  cases y <;> simp_all [RVal.obs]
theorem obs_some {y z : RVal} (h : y.obs = (RVal.some z).obs) : ∃ w, y = .some w ∧ w.obs = z.obs := by
  cases y <;> simp_all [RVal.obs]

/-- **C38** for all values but `-0.0` in fields without presence: the 32 (64) bits of a float or double
member — any bits, NaNs and infinities with their payload and sign included; singular or optional, repeated, packed
(`PackedFixed` compares by its numbers) — are those found after encoding and decoding. Missing: `-0.0` in fields
without presence (`C38_negative_zero_lost`), and messages of 4 GiB. -/
theorem C38_bits_survive_partial (C : Ctx) (hT : C.T.bigEndian = false) (hS : SchemaOk C) (hD : IsDefault C) (n : Nat)
    (idx : MessageIndex) (slots : List RVal) (hv : WellTyped C Plain n idx (.struct slots))
    (hsz : (writeImpl C n idx).get_size (.struct slots) < 2 ^ 32)
    (hbits : (writeImpl C n idx).get_size (.struct slots) < 2 ^ C.T.usizeBits) :
    ∃ (enc : Bytes) (slots' : List RVal), Emits ((writeImpl C n idx).write_message (.struct slots)) enc ∧
      decode C idx enc = .ok (.struct slots') ∧
      ∀ j : Nat, (∀ x, slots[j]? = Option.some (.w32 x) → slots'[j]? = Option.some (.w32 x)) ∧
        (∀ x, slots[j]? = Option.some (.w64 x) → slots'[j]? = Option.some (.w64 x)) ∧
        (∀ x, slots[j]? = Option.some (.some (.w32 x)) → slots'[j]? = Option.some (.some (.w32 x))) ∧
        (∀ x, slots[j]? = Option.some (.some (.w64 x)) → slots'[j]? = Option.some (.some (.w64 x))) ∧
        (∀ p, slots[j]? = Option.some (.pf32 p) → ∃ q, slots'[j]? = Option.some (.pf32 q) ∧ pfElems q = pfElems p) ∧
        (∀ p, slots[j]? = Option.some (.pf64 p) → ∃ q, slots'[j]? = Option.some (.pf64 q) ∧ pfElems q = pfElems p) := by
  obtain ⟨enc, he, hr⟩ := C33_roundtrip_unframed C hT hS hD n idx _ hv hsz
  obtain ⟨v', ho, hr⟩ := hr (enc.length + 1) (by omega)
  have hx := exactWrite C hT hS n idx _ hv (by omega)
  have hl : enc.length < 2 ^ C.T.usizeBits := by
    have := Emits.unique he hx.1
    rw [this, ← hx.2.1]; exact hbits
  have := hr [] [] (by simpa using hl)
  simp only [List.nil_append, List.append_nil, List.length_nil, Nat.zero_add] at this
  have hdec : decode C idx enc = .ok v' := by unfold decode from_bytes; rw [this]
  obtain ⟨slots', rfl⟩ : ∃ s, v' = .struct s := by
    cases v' <;> simp [RVal.obs] at ho; exact ⟨_, rfl⟩
  refine ⟨enc, slots', he, hdec, fun j => ?_⟩
  have hj := obs_struct ho j
  cases h : slots'[j]? with
  | none =>
    rw [h] at hj
    simp only [Option.map_none] at hj
    have : slots[j]? = Option.none := by simpa using hj.symm
    simp [this]
  | some y =>
    rw [h] at hj
    refine ⟨?_, ?_, ?_, ?_, ?_, ?_⟩ <;> intro x hx <;> rw [hx] at hj <;>
      simp only [Option.map_some, Option.some.injEq] at hj
    · rw [obs_w32 hj]
    · rw [obs_w64 hj]
    · obtain ⟨z, rfl, hz⟩ := obs_some hj; rw [obs_w32 hz]
    · obtain ⟨z, rfl, hz⟩ := obs_some hj; rw [obs_w64 hz]
    · cases y <;> simp_all [RVal.obs]
    · cases y <;> simp_all [RVal.obs]

/-- The full **C38** is false: a proto3 float set to `-0.0` (member 7, `w`) is not written, and decodes as `+0.0`. -/
theorem C38_negative_zero_lost (T : Target) :
    let v : RVal := .struct [.w32 0, .bytes [], .vec [], .pf32 .noDataYet, .vec [], .map [], .none, .w32 0x80000000#32, .w32 0, .none]
    WellTyped (Example.ctx T) AnyValue 1 [0] v ∧ Emits ((writeImpl (Example.ctx T) 1 [0]).write_message v) [] ∧
    decode (Example.ctx T) [0] [] =
      .ok (.struct [.w32 0, .bytes [], .vec [], .pf32 .noDataYet, .vec [], .map [], .none, .w32 0#32, .w32 0, .none]) := by
  refine ⟨?_, Emits.nil.congr (fun W _ => rfl) rfl, rfl⟩
  refine Example.wellTyped_of ?_ ?_ ?_ ?_ ?_ ?_ ?_ ?_ ?_ ?_
  · exact ⟨⟨_, rfl⟩, fun _ => trivial⟩
  · exact ⟨⟨_, rfl, Example.utf8_nil⟩, fun _ => trivial⟩
  · exact ⟨[], rfl, by simp⟩
  · exact ⟨_, rfl, by intro b h; cases h⟩
  · exact ⟨[], rfl, by simp⟩
  · exact ⟨_, _, [], rfl, rfl, by simp, by simp⟩
  · exact Or.inl rfl
  · exact ⟨⟨_, rfl⟩, fun _ => trivial⟩
  · exact ⟨⟨_, rfl, (by decide : (0 : BitVec 32) ∈ [0#32, 5#32])⟩, fun _ => trivial⟩
  · exact Or.inl rfl

/-! ## C39 -/

/-- **C39.** A record of a singular enum field carrying *any* varint decodes, to the declared variant with that number
(an `i32`: the number modulo `2^32`), or to the first declared variant. `a`, `c` are other fields around it. -/
theorem C39_enum_decode (C : Ctx) (hS : SchemaOk C) (hD : IsDefault C) (idx : MessageIndex) (m : Message)
    (hm : C.D.getMessage idx = Option.some m) (j : Nat) (f : Field) (e : EnumIndex)
    (hj : (members C.cfg m)[j]? = Option.some (.field f)) (hf : f.frequency.generated = .singular)
    (ht : f.typ = .enum e) (a g p c : Bytes) (us : List (Option Item)) (ha : Records C m a)
    (hg : IsVarint g) (htag : varintVal g % 2 ^ 32 = fieldTag f) (hp : IsVarint p)
    (hc : Parses (Record C (Denotes C) m) c us) (hno : ∀ it, Option.some it ∈ us → it.1.slot ≠ j)
    (hl : (a ++ ((g ++ p) ++ c)).length < 2 ^ C.T.usizeBits) :
    ∃ slots x, decode C idx (a ++ ((g ++ p) ++ c)) = .ok (.struct slots) ∧
      slots[j]? = Option.some (if f.frequency.isOptional then .some (.w32 x) else .w32 x) ∧
      (BitVec.ofNat 32 (varintVal p) ∈ C.enumNums e → x = BitVec.ofNat 32 (varintVal p)) ∧
      (BitVec.ofNat 32 (varintVal p) ∉ C.enumNums e → x = (C.enumNums e).headD 0) := by
  have hval : Arm.isValue ⟨j, f, Option.none⟩ = true := by simp [Arm.isValue, hf]
  have harm : (⟨j, f, Option.none⟩ : Arm) ∈ arms C.cfg m := mem_arms.mpr ⟨_, hj, by simp [memberArms]⟩
  have hrec : ∃ x, Record C (Denotes C) m (g ++ p) (Option.some (⟨j, f, Option.none⟩, .w32 x)) ∧
      (BitVec.ofNat 32 (varintVal p) ∈ C.enumNums e → x = BitVec.ofNat 32 (varintVal p)) ∧
      (BitVec.ofNat 32 (varintVal p) ∉ C.enumNums e → x = (C.enumNums e).headD 0) := by
    by_cases h : BitVec.ofNat 32 (varintVal p) ∈ C.enumNums e
    · exact ⟨_, ⟨g, p, hg, rfl, Or.inl ⟨_, harm, _, htag.symm,
        Arm.isValue.dec hval (by simp only [ht]; exact ⟨hp, Or.inl ⟨h, rfl⟩⟩), rfl⟩⟩, fun _ => rfl, fun h' => (h' h).elim⟩
    · exact ⟨_, ⟨g, p, hg, rfl, Or.inl ⟨_, harm, _, htag.symm,
        Arm.isValue.dec hval (by simp only [ht]; exact ⟨hp, Or.inr ⟨h, rfl⟩⟩), rfl⟩⟩, fun h' => (h h').elim, fun _ => rfl⟩
  obtain ⟨x, hr, h1, h2⟩ := hrec
  obtain ⟨slots, h3, h4⟩ := C36_last_wins C hS hD idx m hm j f hj hf a _ c _ us ha hr hc hno hl
  exact ⟨slots, x, h3, h4, h1, h2⟩

/-- **C39**, the value alone, in any position (repeated, map value, oneof): every varint is one enum value, never an
error, always a declared one if there is any, and the declared ones are themselves. -/
theorem C39_enum_total (C : Ctx) (sub : MessageIndex → Bytes → RVal → Prop) (e : EnumIndex) (p : Bytes) (hp : IsVarint p) :
    (∃ x, DecTyp C sub (.enum e) p (.w32 x) ∧ (C.enumNums e ≠ [] → x ∈ C.enumNums e)) ∧
    ∀ x ∈ C.enumNums e, varintVal p = twos64 x.toInt → ∀ v, DecTyp C sub (.enum e) p v ↔ v = .w32 x := by
  constructor
  · by_cases h : BitVec.ofNat 32 (varintVal p) ∈ C.enumNums e
    · exact ⟨_, ⟨hp, Or.inl ⟨h, rfl⟩⟩, fun _ => h⟩
    · refine ⟨_, ⟨hp, Or.inr ⟨h, rfl⟩⟩, fun hne => ?_⟩
      cases hn : C.enumNums e with
      | nil => exact (hne hn).elim
      | cons a l => simp
  · intro x hx hv v
    have e1 : BitVec.ofNat 32 (varintVal p) = x := by
      rw [hv]
      apply BitVec.eq_of_toNat_eq
      rw [BitVec.toNat_ofNat, twos64]
      have := x.isLt
      rw [BitVec.toInt_eq_toNat_cond]
      split <;> omega
    simp only [DecTyp, hp, true_and, e1, hx, not_true_eq_false, false_and, or_false]

/-- The hypotheses of `C39_enum_decode` hold of field 9 of the example with the undeclared number 3. -/
example (T : Target) (h : T.usizeBits = 64) : ∃ (slots : List RVal) (x : BitVec 32),
    decode (Example.ctx T) [0] ([] ++ (([0x48#8] ++ [0x03#8]) ++ [])) = .ok (.struct slots) ∧ slots[8]? = Option.some (.w32 x) ∧ x = 0 := by
  obtain ⟨s, x, h1, h2, _, h3⟩ := C39_enum_decode (Example.ctx T) (Example.schemaOk T) (Example.isDefault T) [0] Example.node
    (Example.get_node0 T) 8 Example.fKind ⟨[], 0⟩ rfl rfl rfl [] [0x48#8] [0x03#8] [] [] ⟨_, Parses.nil⟩
    (Example.iv1 _ rfl) rfl (Example.iv1 _ rfl) Parses.nil (by simp) (by simp [Example.ctx, h])
  exact ⟨s, x, h1, h2, h3 (by decide : BitVec.ofNat 32 3 ∉ [0#32, 5#32])⟩

/-! ## C40 -/

theorem tag_inj {a b : Int} (ha : 0 < a ∧ a < 2 ^ 29) (hb : 0 < b ∧ b < 2 ^ 29) {v w : Nat} (hv : v < 8) (hw : w < 8)
    (h : Spec.tag a.toNat v = Spec.tag b.toNat w) : a = b ∧ v = w := by
  unfold Spec.tag at h
  omega

/-- A record with the number of a field of `m` and another wire type than that field has is unknown to `m`. -/
theorem other_wireType_unknown {C : Ctx} {m : Message} (hok : MessageOk C.cfg m) {arm : Arm}
    (harm : arm ∈ arms C.cfg m) {g p : Bytes} (hg : IsVarint g) {w : Nat} (hw : w < 8)
    (htag : varintVal g % 2 ^ 32 = Spec.tag arm.field.number.toNat w)
    (hne : w ≠ arm.field.typ.wireTypeNum arm.field.isPacked) (hp : Payload w p) : UnknownRecord C m (g ++ p) := by
  have h8 : varintVal g % 8 = w := by
    have : varintVal g % 2 ^ 32 % 8 = varintVal g % 8 := Nat.mod_mod_of_dvd _ (by decide)
    rw [← this, htag, Spec.tag]; omega
  refine ⟨g, p, hg, ?_, by rw [h8]; exact hp, rfl⟩
  intro a ha h
  rw [htag, fieldTag] at h
  obtain ⟨h1, h2⟩ := tag_inj (arm_number hok ha) (arm_number hok harm) (wireTypeNum_lt _ _) hw h
  have : a.field = arm.field := by
    have hn := hok.distinct
    have := List.pairwise_map.mp hn
    by_cases e : a = arm
    · rw [e]
    · exfalso
      rcases List.mem_iff_getElem.mp ha with ⟨i, hi, rfl⟩
      rcases List.mem_iff_getElem.mp harm with ⟨k, hk, rfl⟩
      have hik : i ≠ k := by rintro rfl; exact e rfl
      rw [List.pairwise_iff_getElem] at this
      rcases Nat.lt_or_gt_of_ne hik with hlt | hlt
      · exact this i k hi hk hlt h1
      · exact this k i hk hi hlt h1.symm
  exact hne (by rw [← h2, this])

/-- What a decoder makes of the *other* encoding of a repeated field: nothing. Unpacked records of a packed field, and
packed records of an unpacked field, are unknown fields; they are skipped without an error. With overflow checks. -/
theorem C40_other_packing_skipped (C : Ctx) (hT : C.T.overflowChecks = true) (hS : SchemaOk C) (idx : MessageIndex)
    (m : Message) (hm : C.D.getMessage idx = Option.some m) (arm : Arm) (harm : arm ∈ arms C.cfg m)
    (hnd : arm.field.typ.wireTypeNum false ≠ 2) (g p : Bytes) (hg : IsVarint g)
    (htag : varintVal g % 2 ^ 32 = Spec.tag arm.field.number.toNat (arm.field.typ.wireTypeNum (!arm.field.isPacked)))
    (hp : Payload (arm.field.typ.wireTypeNum (!arm.field.isPacked)) p) (a c : Bytes) (v : RVal)
    (hR : Roomy C.T (a ++ (g ++ p) ++ c)) (ha : decode C idx a = .ok v) :
    decode C idx (a ++ (g ++ p) ++ c) = decode C idx (a ++ c) := by
  refine C34_unknown_field_ignored C hT hS idx m hm a _ c v hR ha ?_
  refine other_wireType_unknown (hS idx m hm) harm hg (wireTypeNum_lt _ _) htag ?_ hp
  have h2 : arm.field.typ.wireTypeNum true = 2 := by simp [FieldType.wireTypeNum]
  cases hpk : arm.field.isPacked
  · simp only [Bool.not_false]; rw [h2]; exact fun h => hnd h.symm
  · simp only [Bool.not_true]; rw [h2]; exact hnd

/-- **C40** restricted to the declared encoding: for an unpacked repeated field, any sequence of values with its tag is
decoded to that list of values; a packed chunk to the list it contains. Missing: the other encoding, which is skipped
(`C40_other_packing_skipped`, `C40_refuted`). -/
theorem C40_declared_encoding_partial (C : Ctx) (hS : SchemaOk C) (hD : IsDefault C) (idx : MessageIndex) (m : Message)
    (hm : C.D.getMessage idx = Option.some m) (j : Nat) (f : Field)
    (hj : (members C.cfg m)[j]? = Option.some (.field f)) (hf : f.frequency.generated = .arrayLike)
    (hp : f.isPacked = false) (g : Bytes) (hg : IsVarint g) (htag : varintVal g % 2 ^ 32 = fieldTag f)
    (l : List (Bytes × RVal)) (hlx : ∀ x ∈ l, DecTyp C (Denotes C) f.typ x.1 x.2)
    (hl : (l.flatMap (fun x => g ++ x.1)).length < 2 ^ C.T.usizeBits) :
    ∃ slots, decode C idx (l.flatMap (fun x => g ++ x.1)) = .ok (.struct slots) ∧
      slots[j]? = Option.some (.vec (l.map (·.2))) := by
  have harm : (⟨j, f, Option.none⟩ : Arm) ∈ arms C.cfg m := mem_arms.mpr ⟨_, hj, by simp [memberArms]⟩
  have hb : Parses (Record C (Denotes C) m) (l.flatMap (fun x => g ++ x.1))
      (l.map (fun x => Option.some ((⟨j, f, Option.none⟩ : Arm), x.2))) := by
    have := Parses.of_list (R := Record C (Denotes C) m)
      (l := l.map (fun x => (g ++ x.1, Option.some ((⟨j, f, Option.none⟩ : Arm), x.2)))) (by
        intro y hy
        simp only [List.mem_map] at hy
        obtain ⟨x, hx, rfl⟩ := hy
        exact ⟨g, x.1, hg, rfl, Or.inl ⟨_, harm, x.2, htag.symm,
          Arm.isValue.dec (by simp [Arm.isValue, hf, hp]) (hlx x hx), rfl⟩⟩)
    simpa [List.flatMap_map, Function.comp_def] using this
  obtain ⟨slots, h1, h2⟩ := C36_appends C hS hD idx m hm j f hj hf hp _ _ hb hl
  refine ⟨slots, h1, ?_⟩
  rw [h2]
  congr 2
  rw [List.filterMap_map]
  have : ∀ l : List (Bytes × RVal), l.filterMap (id ∘ fun x => Option.some ((⟨j, f, Option.none⟩ : Arm), x.2)) =
      l.map (fun x => ((⟨j, f, Option.none⟩ : Arm), x.2)) := by
    intro l
    induction l with
    | nil => rfl
    | cons x l ih => rw [List.filterMap_cons, ih]; rfl
  rw [this, List.filter_eq_self.mpr (by
    simp only [List.mem_map]
    rintro _ ⟨x, _, rfl⟩
    simp)]
  simp [Function.comp_def]

/-- The full **C40** is false: the packed field `xs` (3, `sint64`), written unpacked as `[1]`, decodes as `[]`. -/
theorem C40_refuted (T : Target) :
    decode (Example.ctx T) [0] [0x18#8, 0x02#8] = decode (Example.ctx T) [0] [] ∧
    ∃ s, decode (Example.ctx T) [0] [0x18#8, 0x02#8] = .ok (.struct s) ∧ s[2]? = Option.some (.vec []) :=
  ⟨rfl, _, rfl, rfl⟩

/-! ## C41 -/

/-- What a packed field decodes to: its last chunk, whatever came before. -/
theorem C41_last_chunk (C : Ctx) (hS : SchemaOk C) (hD : IsDefault C) (idx : MessageIndex) (m : Message)
    (hm : C.D.getMessage idx = Option.some m) (j : Nat) (f : Field)
    (hj : (members C.cfg m)[j]? = Option.some (.field f)) (hf : f.frequency.generated = .arrayLike)
    (hp : f.isPacked = true) (a r c : Bytes) (x : RVal) (us : List (Option Item)) (ha : Records C m a)
    (hr : Record C (Denotes C) m r (Option.some (⟨j, f, Option.none⟩, x)))
    (hc : Parses (Record C (Denotes C) m) c us) (hno : ∀ it, Option.some it ∈ us → it.1.slot ≠ j)
    (hl : (a ++ (r ++ c)).length < 2 ^ C.T.usizeBits) :
    ∃ slots, decode C idx (a ++ (r ++ c)) = .ok (.struct slots) ∧ slots[j]? = Option.some x := by
  obtain ⟨us', ha⟩ := ha
  refine ⟨_, decode_records hS hm (isUnit_of_member hj) (ha.append (Parses.cons hr hc)) hl, ?_⟩
  rw [slotsAfter_get (dflt_get hD hm hj)]
  have e : ((us' ++ Option.some (⟨j, f, Option.none⟩, x) :: us).filterMap id).filter (fun i => i.1.slot == j) =
      (us'.filterMap id).filter (fun i => i.1.slot == j) ++ [(⟨j, f, Option.none⟩, x)] := by
    have : (us.filterMap id).filter (fun i => i.1.slot == j) = [] := by
      simp only [List.filter_eq_nil_iff, List.mem_filterMap, id_eq, beq_iff_eq]
      rintro it ⟨_, hit, rfl⟩
      exact hno it hit
    simp [List.filterMap_append, List.filterMap_cons, this]
  rw [e]
  have hb' : f.boxed = false := by
    cases h : f.boxed
    · rfl
    · have := ((hS idx m hm).members (.field f) (List.mem_of_getElem? hj)).boxed h
      rw [(generated_array hf).2.2] at this; cases this
  simp only [memberAfter, List.getLast?_append, List.getLast?_singleton, Option.some_or, hf, hb', hp]
  simp

/-- **C41** for a single chunk: a packed chunk decodes to the list of the values in it. Missing: several chunks, of which
only the last counts (`C41_last_chunk`, `C41_refuted`). -/
theorem C41_single_chunk_partial (C : Ctx) (hS : SchemaOk C) (hD : IsDefault C) (idx : MessageIndex) (m : Message)
    (hm : C.D.getMessage idx = Option.some m) (j : Nat) (f : Field)
    (hj : (members C.cfg m)[j]? = Option.some (.field f)) (hf : f.frequency.generated = .arrayLike)
    (hp : f.isPacked = true) (hfx : f.typ.isFixedSize = false) (a g p body c : Bytes) (l : List RVal) (us : List (Option Item))
    (ha : Records C m a) (hg : IsVarint g) (htag : varintVal g % 2 ^ 32 = fieldTag f) (hd : Delimited p body)
    (hb : Parses (DecTyp C (Denotes C) f.typ) body l)
    (hc : Parses (Record C (Denotes C) m) c us) (hno : ∀ it, Option.some it ∈ us → it.1.slot ≠ j)
    (hl : (a ++ ((g ++ p) ++ c)).length < 2 ^ C.T.usizeBits) :
    ∃ slots, decode C idx (a ++ ((g ++ p) ++ c)) = .ok (.struct slots) ∧ slots[j]? = Option.some (.vec l) := by
  have harm : (⟨j, f, Option.none⟩ : Arm) ∈ arms C.cfg m := mem_arms.mpr ⟨_, hj, by simp [memberArms]⟩
  have hb' : f.boxed = false := by
    cases h : f.boxed
    · rfl
    · have := ((hS idx m hm).members (.field f) (List.mem_of_getElem? hj)).boxed h
      rw [(generated_array hf).2.2] at this; cases this
  refine C41_last_chunk C hS hD idx m hm j f hj hf hp a (g ++ p) c _ us ha ?_ hc hno hl
  refine ⟨g, p, hg, rfl, Or.inl ⟨_, harm, _, htag.symm, ?_, rfl⟩⟩
  unfold DecArm
  simp only [Option.isSome_none, hb', Bool.or_self, Bool.false_eq_true, if_false, hf, hp, if_true, hfx]
  exact ⟨body, hd, l, hb, rfl⟩

/-- The full **C41** is false: `xs` in two chunks, `[1]` and `[2]`, decodes as `[2]`, not `[1, 2]`. -/
theorem C41_refuted (T : Target) (h : T.usizeBits = 64) : ∃ s : List RVal,
    decode (Example.ctx T) [0] [0x1a#8, 0x01#8, 0x02#8, 0x1a#8, 0x01#8, 0x04#8] = .ok (.struct s) ∧
    s[2]? = Option.some (.vec [.w64 2]) := by
  have hc : ∀ x : Byte, lastByte x = true → Record (Example.ctx T) (Denotes (Example.ctx T)) Example.node ([0x1a#8] ++ [0x01#8, x])
      (Option.some (⟨2, Example.fXs, Option.none⟩, .vec [.w64 ((BitVec.ofNat 64 (varintVal [x])) >>> 1 ^^^
        (-(BitVec.ofNat 64 (varintVal [x]) &&& 1#64)))])) := by
    intro x hx
    refine ⟨_, _, Example.iv1 _ rfl, rfl, Or.inl ⟨⟨2, Example.fXs, Option.none⟩, by simp [arms, Example.node_members], _, rfl,
      ⟨[x], ⟨[0x01#8], Example.iv1 _ rfl, rfl, rfl⟩, ?_⟩, rfl⟩⟩
    refine ⟨_, Example.parses1 ⟨Example.iv1 _ hx, _, rfl, ?_⟩, rfl⟩
    rw [zigzag_unzigzag64, BitVec.toNat_ofNat]
  obtain ⟨s, h1, h2⟩ := C41_last_chunk (Example.ctx T) (Example.schemaOk T) (Example.isDefault T) [0] Example.node
    (Example.get_node0 T) 2 Example.fXs rfl rfl rfl [0x1a#8, 0x01#8, 0x02#8] _ [] _ [] ⟨_, Example.parses1 (hc 0x02#8 rfl)⟩
    (hc 0x04#8 rfl) Parses.nil (by simp) (by simp [Example.ctx, h])
  exact ⟨s, h1, h2⟩

/-! ## C42 -/

theorem arms_not_deprecated (C : Ctx) (hc : C.cfg.addDeprecatedFields = false) (m : Message) :
    ∀ a ∈ arms C.cfg m, a.field.deprecated = false := by
  have hmem : ∀ mem ∈ members C.cfg m, (∀ f, mem = .field f → f.deprecated = false) ∧
      (∀ fs, mem = .oneof fs → ∀ f ∈ fs, f.deprecated = false) := by
    intro mem h
    simp only [members, List.mem_append, List.mem_map, List.mem_filter] at h
    rcases h with ⟨f, ⟨_, hv⟩, rfl⟩ | ⟨o, _, rfl⟩
    · refine ⟨?_, by simp⟩
      rintro _ h
      cases h
      simpa [Field.visible, hc] using hv
    · refine ⟨by simp, ?_⟩
      rintro _ h f hf
      cases h
      simpa [Field.visible, hc] using (List.mem_filter.mp hf).2
  intro a ha
  obtain ⟨mem, h1, h2⟩ := mem_arms.mp ha
  have := hmem mem (List.mem_of_getElem? h1)
  cases mem with
  | field f =>
    simp only [memberArms, List.mem_singleton] at h2
    rw [h2]; exact this.1 f rfl
  | oneof fs =>
    simp only [memberArms, List.mem_map] at h2
    obtain ⟨⟨f, i⟩, hfi, h2⟩ := h2
    rw [← h2]
    exact this.2 fs rfl f (List.fst_mem_of_mem_zipIdx hfi)

/-- **C42**, structure: with `add_deprecated_fields` off, no decoder arm belongs to a deprecated field (also in oneofs), and
no record written (by C62, all that is written and sized) does. -/
theorem C42_not_generated (C : Ctx) (hc : C.cfg.addDeprecatedFields = false) (m : Message) :
    (∀ a ∈ arms C.cfg m, a.field.deprecated = false) ∧
    (∀ slots, ∀ it ∈ msgItems C m slots, it.1.field.deprecated = false) :=
  ⟨arms_not_deprecated C hc m, fun slots it hit => by
    obtain ⟨_, _, _, _, _, h⟩ := mem_msgItems hit
    exact arms_not_deprecated C hc m _ h⟩

/-- **C42**, the other way: every other field has a decoder arm, and with `add_deprecated_fields` on, every field has. -/
theorem C42_generated (cfg : Config) (m : Message) (f : Field) (hf : f ∈ m.allFields)
    (h : f.deprecated = false ∨ cfg.addDeprecatedFields = true) : ∃ a ∈ arms cfg m, a.field = f := by
  have hv : f.visible cfg = true := by rcases h with h | h <;> simp [Field.visible, h]
  simp only [Message.allFields, List.mem_append, List.mem_flatMap] at hf
  rcases hf with hf | ⟨o, ho, hf⟩
  · have hm : Member.field f ∈ members cfg m := by simp [members, hf, hv]
    obtain ⟨i, hi⟩ := List.getElem?_of_mem hm
    exact ⟨⟨i, f, Option.none⟩, mem_arms.mpr ⟨_, hi, by simp [memberArms]⟩, rfl⟩
  · have hm : Member.oneof (o.fields.filter (·.visible cfg)) ∈ members cfg m := by
      simp only [members, List.mem_append, List.mem_map]
      exact Or.inr ⟨o, ho, rfl⟩
    have hf' : f ∈ o.fields.filter (·.visible cfg) := List.mem_filter.mpr ⟨hf, hv⟩
    obtain ⟨i, hi⟩ := List.getElem?_of_mem hm
    obtain ⟨k, hk⟩ := List.getElem?_of_mem hf'
    exact ⟨⟨i, f, Option.some k⟩, mem_arms.mpr ⟨_, hi, by
      simp only [memberArms, List.mem_map]
      exact ⟨(f, k), List.mem_zipIdx_iff_getElem?.mpr hk, rfl⟩⟩, rfl⟩

example : Example.fOld ∈ Example.node.allFields ∧ ({ addDeprecatedFields := true } : Config).addDeprecatedFields = true :=
  ⟨by simp [Message.allFields, Example.node], rfl⟩

/-- **C42**, reading: a record of a field that is not generated (deprecated; its number is that of no generated field) is
unknown: data carrying it decodes as if it were not there. With overflow checks. -/
theorem C42_deprecated_ignored (C : Ctx) (hT : C.T.overflowChecks = true) (hS : SchemaOk C) (idx : MessageIndex)
    (m : Message) (hm : C.D.getMessage idx = Option.some m) (f : Field) (hnum : 0 < f.number ∧ f.number < 2 ^ 29)
    (hother : ∀ a ∈ arms C.cfg m, a.field.number ≠ f.number)
    (g p : Bytes) (hg : IsVarint g) (htag : varintVal g % 2 ^ 32 = fieldTag f)
    (hp : Payload (f.typ.wireTypeNum f.isPacked) p) (a c : Bytes) (v : RVal)
    (hR : Roomy C.T (a ++ (g ++ p) ++ c)) (ha : decode C idx a = .ok v) :
    decode C idx (a ++ (g ++ p) ++ c) = decode C idx (a ++ c) := by
  have hw := wireTypeNum_lt f.typ f.isPacked
  have h8 : varintVal g % 8 = f.typ.wireTypeNum f.isPacked := by
    have : varintVal g % 2 ^ 32 % 8 = varintVal g % 8 := Nat.mod_mod_of_dvd _ (by decide)
    rw [← this, htag, fieldTag, Spec.tag]; omega
  refine C34_unknown_field_ignored C hT hS idx m hm a _ c v hR ha ⟨g, p, hg, ?_, by rw [h8]; exact hp, rfl⟩
  intro b hb h
  rw [htag, fieldTag] at h
  exact hother b hb (tag_inj (arm_number (hS idx m hm) hb) hnum (wireTypeNum_lt _ _) hw h).1

/-- Field 10 of the example is such a field. -/
example (T : Target) : Example.fOld.deprecated = true ∧ Example.fOld ∈ Example.node.fields ∧
    (∀ a ∈ arms (Example.ctx T).cfg Example.node, a.field.number ≠ Example.fOld.number) :=
  ⟨rfl, by simp [Example.node], (by decide : ∀ a ∈ arms {} Example.node, _)⟩

/-! ## C43 -/

/-- **C43**, reading: in every decoded value a oneof is `None` if no record of any of its variants occurred, and the
variant of the last such record otherwise. -/
theorem C43_oneof_last (C : Ctx) (hS : SchemaOk C) (hD : IsDefault C) (idx : MessageIndex) (m : Message)
    (hm : C.D.getMessage idx = Option.some m) (j : Nat) (fs : List Field)
    (hj : (members C.cfg m)[j]? = Option.some (.oneof fs)) (b : Bytes) (us : List (Option Item))
    (hb : Parses (Record C (Denotes C) m) b us) (hl : b.length < 2 ^ C.T.usizeBits) :
    ∃ slots, decode C idx b = .ok (.struct slots) ∧
      ((slots[j]? = Option.some .none ∧ ∀ it, Option.some it ∈ us → it.1.slot ≠ j) ∨
       ∃ us1 us2 i f x, us = us1 ++ Option.some (⟨j, f, Option.some i⟩, x) :: us2 ∧ fs[i]? = Option.some f ∧
        (∀ it, Option.some it ∈ us2 → it.1.slot ≠ j) ∧ slots[j]? = Option.some (.choice i x)) := by
  refine ⟨_, decode_records hS hm (isUnit_of_member hj) hb hl, ?_⟩
  rw [slotsAfter_get (dflt_get hD hm hj)]
  have harms := hb.arms
  clear hb hl
  induction us using snoc_induction with
  | h0 => exact Or.inl ⟨rfl, by simp⟩
  | h1 us u ih =>
    have harm : ∀ it, u = Option.some it → it.1.slot = j → ∃ f i, it.1 = ⟨j, f, Option.some i⟩ ∧ fs[i]? = Option.some f := by
      rintro it rfl hs
      obtain ⟨mem, h1, h2⟩ := mem_arms.mp (harms it (by simp))
      rw [hs, hj] at h1
      cases h1
      simp only [memberArms, List.mem_map] at h2
      obtain ⟨⟨f, i⟩, hfi, h2⟩ := h2
      exact ⟨f, i, by rw [← h2, hs], (List.mem_zipIdx_iff_getElem?.mp hfi)⟩
    have keep : (∀ it, u = Option.some it → it.1.slot ≠ j) →
        ((us ++ [u]).filterMap id).filter (fun x => x.1.slot == j) = (us.filterMap id).filter (fun x => x.1.slot == j) := by
      intro h
      rw [List.filterMap_append, List.filter_append]
      cases u with
      | none => simp
      | some it => simp [h it rfl]
    by_cases hu : ∃ it, u = Option.some it ∧ it.1.slot = j
    · obtain ⟨⟨a, x⟩, rfl, hs⟩ := hu
      obtain ⟨f, i, ha, hi⟩ := harm _ rfl hs
      simp only at ha
      subst ha
      refine Or.inr ⟨us, [], i, f, x, by simp, hi, by simp, ?_⟩
      simp [List.filterMap_append, memberAfter]
    · have hu' : ∀ it, u = Option.some it → it.1.slot ≠ j := fun it h1 h2 => hu ⟨it, h1, h2⟩
      rw [keep hu']
      rcases ih (fun it hit => harms it (by simp [hit])) with ⟨h1, h2⟩ | ⟨us1, us2, i, f, x, rfl, h2, h3, h4⟩
      · refine Or.inl ⟨h1, fun it hit => ?_⟩
        simp only [List.mem_append, List.mem_singleton] at hit
        rcases hit with h | h
        · exact h2 it h
        · exact hu' it h.symm
      · refine Or.inr ⟨us1, us2 ++ [u], i, f, x, by simp, h2, fun it hit => ?_, h4⟩
        simp only [List.mem_append, List.mem_singleton] at hit
        rcases hit with h | h
        · exact h3 it h
        · exact hu' it h.symm

/-- **C43**, for every input (with overflow checks): whatever decodes, decodes to a value in which the oneof is `None` or
exactly one of its declared variants. -/
theorem C43_oneof_any_input (C : Ctx) (hT : C.T.overflowChecks = true) (hS : SchemaOk C) (hD : IsDefault C)
    (idx : MessageIndex) (m : Message) (hm : C.D.getMessage idx = Option.some m) (j : Nat) (fs : List Field)
    (hj : (members C.cfg m)[j]? = Option.some (.oneof fs)) (b : Bytes) (hR : Roomy C.T b) (v : RVal)
    (h : decode C idx b = .ok v) :
    v.slots[j]? = Option.some .none ∨ ∃ i f x, fs[i]? = Option.some f ∧ v.slots[j]? = Option.some (.choice i x) := by
  have hd := (C63_decode_iff C hT hS idx b hR v).mp h
  rw [denotes_unfold] at hd
  obtain ⟨m', hm', hd⟩ := hd
  rw [hm] at hm'
  cases hm'
  rw [isUnit_of_member hj] at hd
  obtain ⟨_, ⟨us, hp, rfl⟩, rfl⟩ := hd
  obtain ⟨slots, h1, h2⟩ := C43_oneof_last C hS hD idx m hm j fs hj b us hp (by unfold Roomy at hR; omega)
  rw [h] at h1
  cases h1
  rcases h2 with ⟨h2, _⟩ | ⟨_, _, i, f, x, _, h3, _, h4⟩
  · exact Or.inl h2
  · exact Or.inr ⟨i, f, x, h3, h4⟩

/-- **C43**, writing: whatever the value of a oneof member, at most one record is emitted for it. -/
theorem C43_oneof_writes_one (C : Ctx) (hT : C.T.bigEndian = false) (hS : SchemaOk C) (n : Nat) (fs : List Field)
    (hfs : ∀ f ∈ fs, VariantOk f) (v : RVal) (hv : MemberTyped C AnyValue (WellTyped C AnyValue n) (.oneof fs) v)
    (hsz : sizeMember C (writeImpl C n) (.oneof fs) v < 2 ^ 64) :
    (v = .none ∧ Emits (fun W _ => writeMember C (writeImpl C n) (.oneof fs) v) []) ∨
    ∃ i f x, fs[i]? = Option.some f ∧ v = .choice i x ∧
      Emits (fun W _ => writeMember C (writeImpl C n) (.oneof fs) v) (varint (fieldTag f) ++ encTyp (encMsg C n) f.typ x) := by
  rcases hv with rfl | ⟨i, f, x, h1, rfl, h2⟩
  · exact Or.inl ⟨rfl, Emits.nil.congr (fun W _ => rfl) rfl⟩
  · refine Or.inr ⟨i, f, x, h1, rfl, ?_⟩
    have hs : sizeMember C (writeImpl C n) (.oneof fs) (.choice i x) = sizeofVarint f.tag + sizeTyp (writeImpl C n) f.typ x := by
      simp only [sizeMember, h1]
    have hok := tagged_ok (C := C) (sub := WellTyped C AnyValue n) (wr := writeImpl C n) (enc := encMsg C n)
      (fun m v hv hlt => writeImpl_ok hT hS n m v hv hlt) (hfs f (List.mem_of_getElem? h1)).number h2
    obtain ⟨_, he⟩ := hok (by rw [← hs]; exact hsz)
    exact he.congr (fun W _ => by simp only [writeMember, h1]) rfl

end QP.Gen
