import Verif.Proofs.GenMsg
import Verif.Props.Framing
import Verif.Props.Example
/-!
# C32, C33, C37, C38, C39, C62: generated `get_size`, `write_message` and `from_reader`
-/

set_option linter.unusedVariables false

namespace QP.Gen
open QP.Pbrs Spec BytesReader

/-! ## C32, C62 -/

/-- **C32.** For every well-formed schema, every message of it and every value of its Rust type (of
whatever depth), on a little-endian target: generated `write_message` performs, on every backend,
a fixed sequence of writes standing for some bytes `enc`, and generated `get_size` is their number
— as long as that is representable in `u64`. -/
theorem C32_get_size_exact (C : Ctx) (hT : C.T.bigEndian = false) (hS : SchemaOk C) (n : Nat)
    (idx : MessageIndex) (v : RVal) (hv : WellTyped C AnyValue n idx v)
    (hsz : (writeImpl C n idx).get_size v < 2 ^ 64) :
    ∃ enc, Emits ((writeImpl C n idx).write_message v) enc ∧
      (writeImpl C n idx).get_size v = enc.length := by
  obtain ⟨h1, h2⟩ := writeImpl_ok hT hS n idx v hv hsz
  exact ⟨_, h2, h1⟩

/-- **C62.** What generated `write_message` emits is the protobuf wire form of the value: the
concatenation of the records of its fields in declaration order, each a tag (number and wire type)
followed by the payload the encoding guide prescribes (`Spec/Message.lean`). -/
theorem C62_wire_format (C : Ctx) (hT : C.T.bigEndian = false) (hS : SchemaOk C) (n : Nat)
    (idx : MessageIndex) (v : RVal) (hv : WellTyped C AnyValue n idx v)
    (hsz : (writeImpl C n idx).get_size v < 2 ^ 64) :
    Emits ((writeImpl C n idx).write_message v) (encMsg C n idx v) :=
  (writeImpl_ok hT hS n idx v hv hsz).2

/-- The contract of C26–C28 holds of all generated code. -/
theorem exactWrite (C : Ctx) (hT : C.T.bigEndian = false) (hS : SchemaOk C) (n : Nat)
    (idx : MessageIndex) (v : RVal) {Q : Field → RVal → Prop} (hv : WellTyped C Q n idx v)
    (hsz : (writeImpl C n idx).get_size v < 2 ^ 64) :
    ExactWrite (writeImpl C n idx) v (encMsg C n idx v) := by
  obtain ⟨h1, h2⟩ := writeImpl_ok hT hS n idx v hv hsz
  exact ⟨h2, h1, h1 ▸ hsz⟩

/-! ## Values -/

theorem HasType.imp {C : Ctx} {s s' : MessageIndex → RVal → Prop} (h : ∀ m v, s m v → s' m v)
    {t : FieldType} {v : RVal} (hv : HasType C s t v) : HasType C s' t v := by
  cases t <;> first | exact h _ _ hv | exact hv

theorem MemberTyped.imp {C : Ctx} {Q Q' : Field → RVal → Prop} {s s' : MessageIndex → RVal → Prop}
    (h : ∀ m v, s m v → s' m v) (hQ : ∀ f v, f.frequency.generated = .singular → f.hasPresence = false → Q f v → Q' f v)
    {mem : Member} {v : RVal}
    (hv : MemberTyped C Q s mem v) : MemberTyped C Q' s' mem v := by
  cases mem with
  | oneof fs =>
    rcases hv with h1 | ⟨i, f, x, h1, h2, h3⟩
    · exact Or.inl h1
    · exact Or.inr ⟨i, f, x, h1, h2, h3.imp h⟩
  | field f =>
    simp only [MemberTyped, FieldTyped] at hv ⊢
    cases hg : f.frequency.generated
    · simp only [hg] at hv ⊢
      cases ho : f.frequency.isOptional
      · simp only [ho, Bool.false_eq_true, if_false] at hv ⊢
        exact ⟨hv.1.imp h, fun hp => hQ f v hg hp (hv.2 hp)⟩
      · simp only [ho, if_true] at hv ⊢
        rcases hv with h1 | ⟨x, h1, h2⟩
        · exact Or.inl h1
        · exact Or.inr ⟨x, h1, h2.imp h⟩
    · simp only [hg] at hv ⊢
      cases hp : isPackedFixed f
      · simp only [hp, Bool.false_eq_true, if_false] at hv ⊢
        obtain ⟨l, h1, h2⟩ := hv
        exact ⟨l, h1, fun x hx => (h2 x hx).imp h⟩
      · simp only [hp, if_true] at hv ⊢
        exact hv
    · simp only [hg] at hv ⊢
      obtain ⟨k, t, l, h1, h2, h3, h4⟩ := hv
      exact ⟨k, t, l, h1, h2, fun e he => ⟨(h3 e he).1.imp h, (h3 e he).2.imp h⟩, h4⟩

theorem WellTyped.imp {C : Ctx} {Q Q' : Field → RVal → Prop}
    (hQ : ∀ f v, f.frequency.generated = .singular → f.hasPresence = false → Q f v → Q' f v) (n : Nat) :
    ∀ idx v, WellTyped C Q n idx v → WellTyped C Q' n idx v := by
  induction n with
  | zero => intro _ _ h; exact h
  | succ n ih =>
    rintro idx v ⟨m, slots, h1, h2, h3, h4⟩
    exact ⟨m, slots, h1, h2, h3, fun p hp => (h4 p hp).imp ih hQ⟩

theorem f32Eq_zero {x : BitVec 32} (h : f32Eq x 0 = true) : x = 0#32 ∨ x = 0x80000000#32 := by
  unfold f32Eq at h
  simp only at h
  split at h
  · cases h
  · split at h
    · rename_i h2
      simp only [Bool.and_eq_true, beq_iff_eq] at h2
      have h3 := congrArg BitVec.toNat h2.1
      rw [BitVec.toNat_and] at h3
      have h4 := Nat.and_two_pow_sub_one_eq_mod x.toNat 31
      have h5 : x.toNat % 2 ^ 31 = 0 := h4.symm.trans h3
      have := x.isLt
      rcases (by omega : x.toNat = 0 ∨ x.toNat = 2 ^ 31) with e | e
      · exact Or.inl (BitVec.eq_of_toNat_eq e)
      · exact Or.inr (BitVec.eq_of_toNat_eq e)
    · exact Or.inl (by simpa using h)

theorem f64Eq_zero {x : BitVec 64} (h : f64Eq x 0 = true) : x = 0#64 ∨ x = 0x8000000000000000#64 := by
  unfold f64Eq at h
  simp only at h
  split at h
  · cases h
  · split at h
    · rename_i h2
      simp only [Bool.and_eq_true, beq_iff_eq] at h2
      have h3 := congrArg BitVec.toNat h2.1
      rw [BitVec.toNat_and] at h3
      have h4 := Nat.and_two_pow_sub_one_eq_mod x.toNat 63
      have h5 : x.toNat % 2 ^ 63 = 0 := h4.symm.trans h3
      have := x.isLt
      rcases (by omega : x.toNat = 0 ∨ x.toNat = 2 ^ 63) with e | e
      · exact Or.inl (BitVec.eq_of_toNat_eq e)
      · exact Or.inr (BitVec.eq_of_toNat_eq e)
    · exact Or.inl (by simpa using h)

/-- A value that equals (`==`) the default of its type is that default, or `-0.0`. -/
theorem scalarEq_default {C : Ctx} {t : FieldType} {v : RVal} (h : scalarEq t v (typDefault C t) = true) :
    (∃ m, t = .message m) ∨ v = typDefault C t ∨ (t = .float ∧ v = .w32 0x80000000#32) ∨
      (t = .double ∧ v = .w64 0x8000000000000000#64) := by
  by_cases hm : ∃ m, t = .message m
  · exact Or.inl hm
  refine Or.inr ?_
  cases t with
  | message m => exact (hm ⟨m, rfl⟩).elim
  | float =>
    cases v <;> simp only [typDefault, scalarEq] at h <;> try cases h
    rw [if_pos trivial] at h
    rcases f32Eq_zero h with rfl | rfl
    · exact Or.inl rfl
    · exact Or.inr (Or.inl ⟨rfl, rfl⟩)
  | double =>
    cases v <;> simp only [typDefault, scalarEq] at h <;> try cases h
    rw [if_pos trivial] at h
    rcases f64Eq_zero h with rfl | rfl
    · exact Or.inl rfl
    · exact Or.inr (Or.inr ⟨rfl, rfl⟩)
  | _ => cases v <;> simp_all [typDefault, scalarEq]

theorem Plain.restorable {C : Ctx} {f : Field} {v : RVal} (hg : f.frequency.generated = .singular)
    (hnp : f.hasPresence = false) (hp : Plain f v) : Restorable C f v := by
  intro h
  have hd : fieldDefault C f = typDefault C f.typ := by unfold fieldDefault; rw [hp.1]
  rw [hd] at h ⊢
  rcases scalarEq_default h with ⟨m, hm⟩ | h | ⟨h1, h2⟩ | ⟨h1, h2⟩
  · exfalso
    unfold Field.hasPresence at hnp
    rw [hm] at hnp
    cases hf : f.frequency <;> rw [hf] at hnp hg <;>
      simp [FieldType.isMap, FieldType.asMessage, Frequency.generated, Frequency.isMap,
        Frequency.isRepeated] at hnp hg
  · exact ⟨h, h⟩
  · exact (hp.2.1 h1 h2).elim
  · exact (hp.2.2 h1 h2).elim

/-! ## C33 -/

/-- **C33.** For every well-formed schema, every message and every value of its Rust type in which
fields without presence (proto3 scalars that are neither `optional` nor `repeated`) have no
`default` option and are not `-0.0`: `serialize_into_vec` succeeds, and `deserialize_from_slice` of
the result gives an equal message (`obs`: equal in every field, a `PackedFixed` being compared by
its numbers). `fuel` bounds the loops of the decoder; more than one per byte is never needed.
Little-endian target, messages below 4 GiB. -/
theorem C33_roundtrip (C : Ctx) (hT : C.T.bigEndian = false) (hS : SchemaOk C) (hD : IsDefault C)
    (n : Nat) (idx : MessageIndex) (v : RVal) (hv : WellTyped C Plain n idx v)
    (hsz : (writeImpl C n idx).get_size v < 2 ^ 32)
    (hbits : sizeof_len ((writeImpl C n idx).get_size v) < 2 ^ C.T.usizeBits) :
    ∃ bytes, serialize_into_vec (writeImpl C n idx) v = .ok bytes ∧
      ∀ fuel, bytes.length ≤ fuel → ∃ v',
        deserialize_from_slice C.T (fromReader C fuel idx) bytes = .ok v' ∧ v'.obs = v.obs := by
  have hv' := WellTyped.imp (Q' := Restorable C) (fun f v => Plain.restorable) n idx v hv
  have hx := exactWrite C hT hS n idx v hv (by omega)
  obtain ⟨bytes, h1, h2, h3, _⟩ := C27_vec_slice_agree _ _ _ hx
  have hl : (encMsg C n idx v).length < 2 ^ 32 := by rw [← hx.2.1]; exact hsz
  refine ⟨bytes, h1, fun fuel hf => ?_⟩
  subst h2
  have hd := delimited_length (encMsg C n idx v)
  obtain ⟨v', ho, hr⟩ := fromReader_ok hT hS hD n idx v hv' hl fuel (by omega)
  refine ⟨v', ?_, ho⟩
  have := readsAs_len_varint (T := C.T) hl hr.weak [] [] (delimited (encMsg C n idx v)).length
    (by simpa [h3] using hbits) (by simp)
  simp only [List.nil_append, List.append_nil, List.length_nil] at this
  simp only [deserialize_from_slice, read_message, BytesReader.from_bytes]
  rw [this]

/-- The example schema and value meet all the hypotheses. -/
example : (Example.ctx Target.debug64).T.bigEndian = false ∧ SchemaOk (Example.ctx Target.debug64) ∧
    IsDefault (Example.ctx Target.debug64) ∧
    WellTyped (Example.ctx Target.debug64) Plain 2 [0] Example.value ∧
    (writeImpl (Example.ctx Target.debug64) 2 [0]).get_size Example.value = 67 :=
  ⟨rfl, Example.schemaOk _, Example.isDefault _, Example.value_typed _ 0, by decide⟩

/-- **C33**, unframed: `write_message` then `from_reader` over exactly the emitted bytes. -/
theorem C33_roundtrip_unframed (C : Ctx) (hT : C.T.bigEndian = false) (hS : SchemaOk C)
    (hD : IsDefault C) (n : Nat) (idx : MessageIndex) (v : RVal) (hv : WellTyped C Plain n idx v)
    (hsz : (writeImpl C n idx).get_size v < 2 ^ 32) :
    ∃ enc, Emits ((writeImpl C n idx).write_message v) enc ∧
      ∀ fuel, enc.length < fuel → ∃ v', v'.obs = v.obs ∧ ReadsAll C.T (fromReader C fuel idx) enc v' := by
  have hv' := WellTyped.imp (Q' := Restorable C) (fun f v => Plain.restorable) n idx v hv
  have hx := exactWrite C hT hS n idx v hv (by omega)
  refine ⟨_, hx.1, fun fuel hf => fromReader_ok hT hS hD n idx v hv' ?_ fuel hf⟩
  rw [← hx.2.1]; exact hsz

end QP.Gen
