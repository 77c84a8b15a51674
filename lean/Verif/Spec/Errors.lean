import Verif.Spec.Message
import Verif.Spec.Wire
import Verif.Spec.Utf8
/-!
# What is wrong with the input

For every error of the decoder: what there is in the input, and in the schema, that explains it.
-/

namespace QP.Gen
open QP.Pbrs Spec

/-- At offset `i` of `bytes` there is a varint of `k` bytes (ten at most), the number `n`. -/
def VarintAt (bytes : Bytes) (i k n : Nat) : Prop :=
  ∃ conts b rest, bytes.drop i = conts ++ b :: rest ∧ (∀ c ∈ conts, lastByte c = false) ∧ lastByte b = true ∧ k = conts.length + 1 ∧ k ≤ 10 ∧
    n = varintVal (conts ++ [b])

/-- A field of some message has a type with `P`, or keys or values with `P`. -/
def Uses (C : Ctx) (P : FieldType → Prop) : Prop :=
  ∃ idx m a, C.D.getMessage idx = Option.some m ∧ a ∈ arms C.cfg m ∧ (P a.field.typ ∨ ∃ k v, a.field.typ = .map k v ∧ (P k ∨ P v))

/-- The tag `n` is in the input, and some message has no field with this tag (tags are read modulo `2 ^ 32`). -/
def UnknownField (C : Ctx) (bytes : Bytes) (n : Nat) : Prop :=
  (∃ i k, VarintAt bytes i k n) ∧ ∃ idx m, C.D.getMessage idx = Option.some m ∧ ∀ a ∈ arms C.cfg m, a.field.tag.toNat ≠ n % 2 ^ 32

/-- What explains an error, when `bytes` are decoded as a message of schema `C`.
* not UTF-8: there are strings in the schema, and in the input a length followed by as many bytes that are not UTF-8;
* a map tag: there are maps in the schema, and a byte in the input with this number, neither 1 nor 2, in front of the three bits of the wire type;
* a deprecated feature: an unknown field that is the start or end of a group;
* an unknown wire type: an unknown field with wire type 6 or 7, which is reported;
* a bad varint: ten bytes in a row that all want another one, or an unknown field with a length (which runs over the end: this error is misleading);
* the end of the buffer: no claim here;
* the other errors (input and output, a buffer that is too small for writing) never come from decoding. -/
def Reason (C : Ctx) (bytes : Bytes) : Error → Prop
  | .Utf8 => Uses C (fun t => t = .stringCow ∨ t = .string_) ∧
      ∃ i k n, VarintAt bytes i k n ∧ i + k + n % 2 ^ 32 ≤ bytes.length ∧ ¬ ValidUtf8 ((bytes.drop (i + k)).take (n % 2 ^ 32))
  | .Map t => Uses C (fun t => t.isMap = true) ∧ ∃ (i : Nat) (b : Byte), bytes[i]? = Option.some b ∧ t.toNat = b.toNat / 8 ∧ t.toNat ≠ 1 ∧ t.toNat ≠ 2
  | .Deprecated => ∃ n, UnknownField C bytes n ∧ (n % 8 = 3 ∨ n % 8 = 4)
  | .UnknownWireType t => ∃ n, UnknownField C bytes n ∧ n % 8 = t.toNat ∧ (t.toNat = 6 ∨ t.toNat = 7)
  | .Varint => (∃ i conts rest, bytes.drop i = conts ++ rest ∧ conts.length = 10 ∧ ∀ c ∈ conts, lastByte c = false) ∨
      ∃ n, UnknownField C bytes n ∧ (n % 8 = 1 ∨ n % 8 = 2 ∨ n % 8 = 5)
  | .UnexpectedEndOfBuffer => True
  | .Io => False
  | .Message => False
  | .OutputBufferTooSmall => False

end QP.Gen
