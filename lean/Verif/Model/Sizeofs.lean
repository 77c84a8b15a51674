import Verif.Model.Basic
/-!
# `quick-protobuf/src/sizeofs.rs`
-/

namespace QP

/-- sizeofs.rs 8-21, `sizeof_varint`. -/
def sizeof_varint (v : BitVec 64) : Nat :=
  if v ≤ 0x7F#64 then 1
  else if v ≤ 0x3FFF#64 then 2
  else if v ≤ 0x1FFFFF#64 then 3
  else if v ≤ 0xFFFFFFF#64 then 4
  else if v ≤ 0x7FFFFFFFF#64 then 5
  else if v ≤ 0x3FFFFFFFFFF#64 then 6
  else if v ≤ 0x1FFFFFFFFFFFF#64 then 7
  else if v ≤ 0xFFFFFFFFFFFFFF#64 then 8
  else if v ≤ 0x7FFFFFFFFFFFFFFF#64 then 9
  else 10

/-- sizeofs.rs 27-29, `sizeof_len(len: usize)`; `len as u64` is `ofNat 64`.
Simplification: the final `+` on `usize` is not overflow-checked here (it would need a length
within ten of `usize::MAX`). -/
def sizeof_len (len : Nat) : Nat := sizeof_varint (BitVec.ofNat 64 len) + len

/-- sizeofs.rs 32-34, `sizeof_int32`; `v as u64` on an `i32` sign-extends. -/
def sizeof_int32 (v : BitVec 32) : Nat := sizeof_varint (v.signExtend 64)

/-- sizeofs.rs 37-39, `sizeof_int64`. -/
def sizeof_int64 (v : BitVec 64) : Nat := sizeof_varint v

/-- sizeofs.rs 42-44, `sizeof_uint32`. -/
def sizeof_uint32 (v : BitVec 32) : Nat := sizeof_varint (v.setWidth 64)

/-- sizeofs.rs 47-49, `sizeof_uint64`. -/
def sizeof_uint64 (v : BitVec 64) : Nat := sizeof_varint v

/-- The expression `(v << 1) ^ (v >> 31)` on `i32` (sizeofs.rs 53, writer.rs 112). -/
def zigzagExpr32 (v : BitVec 32) : BitVec 32 := (v <<< 1) ^^^ (v.sshiftRight 31)

/-- The expression `(v << 1) ^ (v >> 63)` on `i64` (sizeofs.rs 58, writer.rs 118). -/
def zigzagExpr64 (v : BitVec 64) : BitVec 64 := (v <<< 1) ^^^ (v.sshiftRight 63)

/-- sizeofs.rs 52-54, `sizeof_sint32`; the `i32` expression is cast `as u64`, i.e. sign-extended. -/
def sizeof_sint32 (v : BitVec 32) : Nat := sizeof_varint ((zigzagExpr32 v).signExtend 64)

/-- sizeofs.rs 57-59, `sizeof_sint64`. -/
def sizeof_sint64 (v : BitVec 64) : Nat := sizeof_varint (zigzagExpr64 v)

/-- sizeofs.rs 62-64, `sizeof_bool`. -/
def sizeof_bool (_ : Bool) : Nat := 1

/-- sizeofs.rs 67-69, `sizeof_enum`. -/
def sizeof_enum (v : BitVec 32) : Nat := sizeof_int32 v

end QP
