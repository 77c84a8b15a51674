import Verif.Model.Owned
import Verif.Props.Messages
import Verif.Props.FieldKinds
import Verif.Proofs.Typed
import Verif.Proofs.Unsign
/-!
# Owned wrappers (C44) and re-encoding (C45)
-/

set_option linter.unusedVariables false

namespace QP.Gen
open QP.Pbrs Spec BytesReader

/-! ## C44 -/

/-- What safe code can do to get a `FooOwned`: `try_from` a buffer, convert a value, mutate through `proto_mut`. -/
inductive Owned.Reachable (C : Ctx) (idx : MessageIndex) : Owned → Prop
  | tryFrom {fuel buf o} (h : Owned.tryFrom C fuel idx buf = .ok o) : Reachable C idx o
  | fromProto (v : RVal) : Reachable C idx (Owned.fromProto v)
  | protoMut {o o'} (f : RVal → RVal) (h : Reachable C idx o) (h' : o.protoMut f = .ok o') : Reachable C idx o'

/-- **C44**: `FooOwned::try_from(buf)` succeeds exactly when `Foo` decodes `buf`, and then `proto()` is the decoded value
and `buf()` is `buf`; a decoding error (or panic) is passed on. -/
theorem C44_try_from (C : Ctx) (idx : MessageIndex) (buf : Bytes) :
    (∀ o, Owned.tryFrom C (buf.length + 1) idx buf = .ok o ↔
      ∃ v, decode C idx buf = .ok v ∧ o.getProto = .ok v ∧ o.getBuf = buf) ∧
    (∀ e, Owned.tryFrom C (buf.length + 1) idx buf = .err e ↔ decode C idx buf = .err e) ∧
    (Owned.tryFrom C (buf.length + 1) idx buf = .panic ↔ decode C idx buf = .panic) := by
  unfold Owned.tryFrom decode
  simp only
  rcases (fromReader C (buf.length + 1) idx buf (from_bytes buf)).1 with v | e | _ | _ | _
  · refine ⟨fun o => ⟨fun h => ?_, fun h => ?_⟩, fun e => ?_, ?_⟩
    · cases h; exact ⟨v, rfl, rfl, rfl⟩
    · obtain ⟨w, h1, h2, h3⟩ := h
      cases h1
      rcases o with ⟨b, p⟩
      cases p with
      | none => simp [Owned.getProto] at h2
      | some p =>
        simp only [Owned.getProto, Out.ok.injEq, Owned.getBuf] at h2 h3
        subst h2 h3; rfl
    · simp
    · simp
  all_goals simp

/-- **C44**: no `FooOwned` a user can get panics in `proto()`, `proto_mut()` or the `unwrap`s of `try_into`; the buffer of
one obtained from bytes is never changed by mutating the value. -/
theorem C44_proto_total (C : Ctx) (idx : MessageIndex) (o : Owned) (h : o.Reachable C idx) :
    (∃ v, o.getProto = .ok v) ∧ ∀ f, ∃ o', o.protoMut f = .ok o' ∧ o'.getBuf = o.getBuf ∧
      ∀ v, o.getProto = .ok v → o'.getProto = .ok (f v) := by
  have key : ∃ v, o.proto = Option.some v := by
    induction h with
    | tryFrom h =>
      rename_i fuel buf o
      unfold Owned.tryFrom at h
      simp only at h
      split at h <;> cases h
      exact ⟨_, rfl⟩
    | fromProto v => exact ⟨v, rfl⟩
    | protoMut f h h' ih =>
      obtain ⟨v, hv⟩ := ih
      unfold Owned.protoMut at h'
      rw [hv] at h'
      cases h'
      exact ⟨_, rfl⟩
  obtain ⟨v, hv⟩ := key
  rcases o with ⟨b, p⟩
  simp only at hv
  subst hv
  refine ⟨⟨v, rfl⟩, fun f => ⟨⟨b, Option.some (f v)⟩, rfl, rfl, fun w hw => ?_⟩⟩
  simp only [Owned.getProto, Out.ok.injEq] at hw ⊢
  rw [hw]

/-- **C44**: `try_into` returns exactly the wire form of the value (no length prefix). -/
theorem C44_try_into (C : Ctx) (hT : C.T.bigEndian = false) (hS : SchemaOk C) (n : Nat) (idx : MessageIndex) (o : Owned)
    (v : RVal) (ho : o.getProto = .ok v) (hv : WellTyped C AnyValue n idx v)
    (hsz : (writeImpl C n idx).get_size v < 2 ^ 64) : o.tryInto C n idx = .ok (encMsg C n idx v) := by
  rcases o with ⟨b, p⟩
  cases p with
  | none => simp [Owned.getProto] at ho
  | some w =>
    simp only [Owned.getProto, Out.ok.injEq] at ho
    subst ho
    have := (C62_wire_format C hT hS n idx w hv hsz).vec []
    simp only [Owned.tryInto, this, List.nil_append]

/-- **C44**: `TryFrom<&[u8]>`, generated for messages that borrow nothing, is decoding. -/
theorem C44_try_from_slice (C : Ctx) (idx : MessageIndex) (buf : Bytes) :
    tryFromSlice C (buf.length + 1) idx buf = decode C idx buf := rfl

/-- The example value goes through `From` and `try_into`. -/
example : (Owned.fromProto Example.leaf).Reachable (Example.ctx Target.debug64) [0] ∧
    (Owned.fromProto Example.leaf).tryInto (Example.ctx Target.debug64) 1 [0]
      = .ok (encMsg (Example.ctx Target.debug64) 1 [0] Example.leaf) :=
  ⟨.fromProto _, C44_try_into _ rfl (Example.schemaOk _) 1 [0] _ Example.leaf rfl
    (WellTyped.imp (fun f v _ _ _ => trivial) 1 _ _ (Example.leaf_typed _ 0)) (by decide)⟩

/-- A buffer that decodes, with an unknown field, through `try_from`. -/
example : Owned.tryFrom (Example.ctx Target.debug64) 5 [0] [0x08#8, 7#8, 0x68#8, 1#8]
    = .ok ⟨[0x08#8, 7#8, 0x68#8, 1#8], some (.struct
      [.w32 7, .bytes [], .vec [], .pf32 .noDataYet, .vec [], .map [], .none, .w32 0, .w32 0, .none])⟩ := rfl

/-! ## C45 -/

/-- **C45**, first part: whatever the input, a decoded value is a value of the message's Rust type (enum members are known
variants, strings are UTF-8, map keys are distinct, borrowed packed fields hold whole numbers), so `write_message` accepts
it and emits its wire form. -/
theorem C45_decoded_is_encodable_partial (C : Ctx) (hT : C.T.bigEndian = false) (hO : C.T.overflowChecks = true)
    (hS : SchemaOk C) (hr : Resolved C) (hD : IsDefault C) (idx : MessageIndex) (b : Bytes) (hR : Roomy C.T b) (v : RVal)
    (h : decode C idx b = .ok v) :
    ∃ n, WellTyped C AnyValue n idx v ∧
      ((writeImpl C n idx).get_size v < 2 ^ 64 → Emits ((writeImpl C n idx).write_message v) (encMsg C n idx v)) := by
  obtain ⟨k, hk⟩ := (C63_decode_iff C hO hS idx b hR v).mp h
  obtain ⟨n, hn⟩ := decMsg_typed (Q := AnyValue) hr hS hD (fun _ _ _ _ _ _ _ => trivial) k idx b v hk
  exact ⟨n, hn, C62_wire_format C hT hS n idx v hn⟩

/-- **C45**: any input that decodes, however non-canonical (merged, reordered, overlong, with unknown fields), decodes to a
value whose encoding decodes to the same value, up to the sign of floating point zeros in fields without presence
(`unsign`; without it the statement is false, `C45_negative_zero`). For schemas without `default` options on such fields,
little-endian targets, encodings below 4 GiB. -/
theorem C45_reencode_partial (C : Ctx) (hT : C.T.bigEndian = false) (hO : C.T.overflowChecks = true)
    (hS : SchemaOk C) (hr : Resolved C) (hD : IsDefault C) (hF : NoDefaults C) (idx : MessageIndex) (b : Bytes)
    (hR : Roomy C.T b) (v : RVal) (h : decode C idx b = .ok v) :
    ∃ n, WellTyped C AnyValue n idx v ∧ ((writeImpl C n idx).get_size v < 2 ^ 32 →
      Emits ((writeImpl C n idx).write_message v) (encMsg C n idx v) ∧
      ((encMsg C n idx v).length < 2 ^ C.T.usizeBits →
        ∃ v', decode C idx (encMsg C n idx v) = .ok v' ∧ v'.obs = (unsign C n idx v).obs)) := by
  obtain ⟨n, hn, he⟩ := C45_decoded_is_encodable_partial C hT hO hS hr hD idx b hR v h
  refine ⟨n, hn, fun hsz => ⟨he (by omega), fun hl => ?_⟩⟩
  have hlen := (writeImpl_ok hT hS n idx v hn (by omega)).1
  have hrest := WellTyped.imp (Q' := Restorable C) (fun f v => Plain.restorable) n idx _ (unsign_typed hF n idx v hn)
  have heq := unsign_enc hS hF n idx v hn
  obtain ⟨v', ho, hra⟩ := fromReader_ok hT hS hD n idx _ hrest (by rw [heq, ← hlen]; exact hsz)
    ((encMsg C n idx v).length + 1) (by rw [heq]; omega)
  rw [heq] at hra
  refine ⟨v', ?_, ho⟩
  have := hra [] [] (by simpa using hl)
  unfold decode from_bytes
  simp only [List.nil_append, List.append_nil, List.length_nil, Nat.zero_add] at this
  rw [this]

/-- **C33** without the restriction to `Plain` values: every value of the message's Rust type survives a round trip up to
the sign of floating point zeros in fields without presence. -/
theorem C33_roundtrip_any (C : Ctx) (hT : C.T.bigEndian = false) (hS : SchemaOk C) (hD : IsDefault C) (hF : NoDefaults C)
    (n : Nat) (idx : MessageIndex) (v : RVal) (hv : WellTyped C AnyValue n idx v)
    (hsz : (writeImpl C n idx).get_size v < 2 ^ 32) :
    ∃ enc, Emits ((writeImpl C n idx).write_message v) enc ∧
      ∀ fuel, enc.length < fuel →
        ∃ v', v'.obs = (unsign C n idx v).obs ∧ ReadsAll C.T (fromReader C fuel idx) enc v' := by
  have hx := exactWrite C hT hS n idx v hv (by omega)
  refine ⟨_, hx.1, fun fuel hf => ?_⟩
  have hrest := WellTyped.imp (Q' := Restorable C) (fun f v => Plain.restorable) n idx _ (unsign_typed hF n idx v hv)
  have heq := unsign_enc hS hF n idx v hv
  have := fromReader_ok hT hS hD n idx _ hrest (by rw [heq, ← hx.2.1]; exact hsz) fuel (by rw [heq]; exact hf)
  rw [heq] at this
  exact this

theorem Example.noDefaults (T : Target) : NoDefaults (Example.ctx T) := by
  intro idx m h f hf _ _
  obtain ⟨rfl, rfl⟩ := Example.get_node T idx m h
  rw [Example.node_members] at hf
  simp only [List.mem_cons, List.not_mem_nil, or_false, Member.field.injEq, reduceCtorEq] at hf
  rcases hf with rfl | rfl | rfl | rfl | rfl | rfl | rfl | rfl | rfl <;> rfl

/-- The example schema is resolved. -/
theorem Example.resolved (T : Target) : Resolved (Example.ctx T) := by
  intro idx m h
  obtain ⟨rfl, rfl⟩ := Example.get_node T idx m h
  intro a ha
  have hd : a.field.default = Option.none :=
    (by decide : ∀ a ∈ arms {} Example.node, a.field.default = Option.none) a ha
  refine ⟨?_, fun s hs => by rw [hd] at hs; cases hs⟩
  change a ∈ [_, _, _, _, _, _, _, _, _, _, _] at ha
  simp only [List.mem_cons, List.not_mem_nil, or_false] at ha
  rcases ha with rfl | rfl | rfl | rfl | rfl | rfl | rfl | rfl | rfl | rfl | rfl
  all_goals first
    | exact trivial
    | exact ⟨trivial, trivial, rfl⟩
    | exact ⟨_, Example.get_node0 T⟩
    | exact (fun h => by cases h)

/-- **C45**, the full statement fails: `-0.0` in a proto3 `float` field is decoded as `-0.0`, but is equal to the default
`0.0`, so it is not encoded, and decoding again gives `0.0`. -/
theorem C45_negative_zero :
    ∃ v v', decode (Example.ctx Target.debug64) [0] [0x45#8, 0#8, 0#8, 0#8, 0x80#8] = .ok v ∧
      WellTyped (Example.ctx Target.debug64) AnyValue 1 [0] v ∧
      (Owned.fromProto v).tryInto (Example.ctx Target.debug64) 1 [0] = .ok [] ∧
      decode (Example.ctx Target.debug64) [0] [] = .ok v' ∧ v'.obs ≠ v.obs := by
  refine ⟨.struct [.w32 0, .bytes [], .vec [], .pf32 .noDataYet, .vec [], .map [], .none,
    .w32 0x80000000#32, .w32 0, .none], Example.nodeDefault, rfl, ?_, rfl, rfl, ?_⟩
  · refine Example.wellTyped_of ?_ ?_ ?_ ?_ ?_ ?_ ?_ ?_ ?_ ?_
    · exact ⟨⟨_, rfl⟩, fun _ => trivial⟩
    · exact ⟨⟨_, rfl, Example.utf8_nil⟩, fun _ => trivial⟩
    · exact ⟨[], rfl, by simp⟩
    · exact ⟨_, rfl, by intro b h; cases h⟩
    · exact ⟨[], rfl, by simp⟩
    · exact ⟨_, _, [], rfl, rfl, by simp, List.Pairwise.nil⟩
    · exact Or.inl rfl
    · exact ⟨⟨_, rfl⟩, fun _ => trivial⟩
    · exact ⟨⟨_, rfl, by decide⟩, fun _ => trivial⟩
    · exact Or.inl rfl
  · intro h
    simp [Example.nodeDefault, RVal.obs, RVal.obsList] at h

/-- The hypotheses of `C45_reencode_partial` are met by the example schema and an input that sets field 1 twice (once
with an overlong varint) around an unknown field. -/
example : ∃ n v, WellTyped (Example.ctx Target.debug64) AnyValue n [0] v ∧
    decode (Example.ctx Target.debug64) [0] [0x08#8, 7#8, 0x68#8, 1#8, 0x08#8, 0x85#8, 0x00#8] = .ok v := by
  obtain ⟨n, h, _⟩ := C45_reencode_partial (Example.ctx Target.debug64) rfl rfl (Example.schemaOk _) (Example.resolved _)
    (Example.isDefault _) (Example.noDefaults _) [0] [0x08#8, 7#8, 0x68#8, 1#8, 0x08#8, 0x85#8, 0x00#8]
    (roomy64 _ rfl _ (by decide)) _ rfl
  exact ⟨n, _, h, rfl⟩

end QP.Gen
