import Verif.Model.Basic
/-!
# The protobuf wire format, independently of the code

A small specification, taken from the protobuf encoding guide, in terms of `Nat`, `Int` and lists.
None of these definitions uses the model of the crate.
-/

namespace QP.Spec

/-- Canonical base-128 varint of a natural number: seven bits per byte, least significant group
first, high bit set on every byte but the last. -/
def varint (n : Nat) : Bytes :=
  if n < 128 then [BitVec.ofNat 8 n]
  else BitVec.ofNat 8 (n % 128 + 128) :: varint (n / 128)
termination_by n
decreasing_by omega

/-- The number denoted by a sequence of varint bytes: `Σ (bᵢ mod 128) · 128ⁱ`. -/
def varintVal : Bytes → Nat
  | [] => 0
  | b :: bs => b.toNat % 128 + 128 * varintVal bs

/-- A byte ends a varint iff its high bit is clear. -/
def lastByte (b : Byte) : Bool := b.toNat < 128

/-- ZigZag: `0, -1, 1, -2, 2, …` are numbered `0, 1, 2, 3, 4, …`. -/
def zigzag (i : Int) : Nat := if 0 ≤ i then (2 * i).toNat else (-2 * i - 1).toNat

/-- Two's complement on 64 bits: what `int32`, `int64` and enum values are before varint coding. -/
def twos64 (i : Int) : Nat := (i % 2 ^ 64).toNat

/-- Little-endian bytes of `n` on `k` bytes. -/
def le : Nat → Nat → Bytes
  | 0, _ => []
  | k + 1, n => BitVec.ofNat 8 (n % 256) :: le k (n / 256)

/-- The number denoted by little-endian bytes. -/
def leVal : Bytes → Nat
  | [] => 0
  | b :: bs => b.toNat + 256 * leVal bs

/-- A length-delimited chunk: varint length, then the payload. -/
def delimited (payload : Bytes) : Bytes := varint payload.length ++ payload

/-- Tag of a field: `(number << 3) | wire_type`. -/
def tag (number wireType : Nat) : Nat := number * 8 + wireType

end QP.Spec
