import Verif.Proofs.Errors
import Verif.Props.Example
set_option linter.unusedVariables false
/-!
# C117: errors of the decoder
-/

namespace QP.Gen
open QP.Pbrs Spec BytesReader

/-- **C117.** Whatever the input, if decoding fails there is a reason for the error in the input and the schema (Spec/Errors.lean). In debug and release
builds, from any state of the reader. -/
theorem C117_reason (C : Ctx) (hU : 32 ≤ C.T.usizeBits) (bytes : Bytes) (hL : bytes.length < 2 ^ C.T.usizeBits) (fuel : Nat) (idx : MessageIndex)
    (r r' : BytesReader) (e : Error) (h : fromReader C fuel idx bytes r = (.err e, r')) : Reason C bytes e :=
  fails_fromReader hU hL fuel idx r e r' h

/-- **C117**, with a length in front (`deserialize_from_slice`). -/
theorem C117_framed (C : Ctx) (hU : 32 ≤ C.T.usizeBits) (bytes : Bytes) (hL : bytes.length < 2 ^ C.T.usizeBits) (fuel : Nat) (idx : MessageIndex)
    (e : Error) (h : deserialize_from_slice C.T (fromReader C fuel idx) bytes = .err e) : Reason C bytes e := by
  unfold deserialize_from_slice at h
  cases hp : read_message C.T bytes (fromReader C fuel idx bytes) (from_bytes bytes) with
  | mk o s =>
    rw [hp] at h
    subst h
    exact (fails_len_varint (fails_fromReader hU hL fuel idx)) _ _ _ hp

/-- **C117**, by schema: without strings no error is about UTF-8, without maps none about map tags; decoding never gives an error of input and output. -/
theorem C117_never (C : Ctx) (hU : 32 ≤ C.T.usizeBits) (bytes : Bytes) (hL : bytes.length < 2 ^ C.T.usizeBits) (fuel : Nat) (idx : MessageIndex)
    (r r' : BytesReader) (e : Error) (h : fromReader C fuel idx bytes r = (.err e, r')) :
    e ≠ .Io ∧ e ≠ .Message ∧ e ≠ .OutputBufferTooSmall ∧ (¬ Uses C (fun t => t = .stringCow ∨ t = .string_) → e ≠ .Utf8) ∧
      (¬ Uses C (fun t => t.isMap = true) → ∀ t, e ≠ .Map t) ∧ ∀ t, e = .UnknownWireType t → 6 ≤ t.toNat ∧ t.toNat ≤ 7 := by
  have hr := C117_reason C hU bytes hL fuel idx r r' e h
  refine ⟨?_, ?_, ?_, fun hn => ?_, fun hn t => ?_, fun t => ?_⟩
  · rintro rfl; exact hr
  · rintro rfl; exact hr
  · rintro rfl; exact hr
  · rintro rfl; exact hn hr.1
  · rintro rfl; exact hn hr.1
  · rintro rfl
    obtain ⟨n, _, _, h1⟩ := hr
    omega

/-! ## The example -/

namespace Example

/-- All of these errors occur: a string that is not UTF-8; a map entry with a third field; a group; a field of wire type 7; a varint of eleven
bytes; a fixed-size number that is cut off. -/
theorem C117_example (T : Target) (hT : T = Target.debug64 ∨ T = Target.release64) :
    (fromReader (ctx T) 9 [0] [0x12, 0x01, 0xff] ⟨0, 3⟩).1 = .err .Utf8 ∧
    (fromReader (ctx T) 9 [0] [0x32, 0x02, 0x18, 0x00] ⟨0, 4⟩).1 = .err (.Map 3) ∧
    (fromReader (ctx T) 9 [0] [0x7b] ⟨0, 1⟩).1 = .err .Deprecated ∧
    (fromReader (ctx T) 9 [0] [0x7f] ⟨0, 1⟩).1 = .err (.UnknownWireType 7) ∧
    (fromReader (ctx T) 9 [0] [0x08, 0x80, 0x80, 0x80, 0x80, 0x80, 0x80, 0x80, 0x80, 0x80, 0x80, 0x01] ⟨0, 12⟩).1 = .err .Varint ∧
    (fromReader (ctx T) 9 [0] [0x45, 0x01, 0x02] ⟨0, 3⟩).1 = .err .UnexpectedEndOfBuffer := by
  rcases hT with rfl | rfl
  · exact ⟨rfl, rfl, rfl, rfl, rfl, rfl⟩
  · exact ⟨rfl, rfl, rfl, rfl, rfl, rfl⟩

/-- A misleading error: an unknown field with eight bytes of which three are there is reported as a bad varint, though the only varint, its tag,
is fine; a known field that is cut off is reported as the end of the buffer. -/
theorem C117_refuted_varint : (fromReader (ctx Target.release64) 9 [0] [0x79, 0x01, 0x02, 0x03] ⟨0, 4⟩).1 = .err .Varint ∧
    ∀ b ∈ ([0x79, 0x01, 0x02, 0x03] : Bytes), lastByte b = true := ⟨rfl, by decide⟩

end Example

end QP.Gen
