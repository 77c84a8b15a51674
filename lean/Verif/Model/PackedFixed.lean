import Verif.Model.Basic
/-!
# `PackedFixed` (`quick-protobuf/src/reader.rs` 716-963)

The element type `T: Copy + PartialEq` is described by its in-memory layout.
-/

namespace QP

/-- What the code can observe of a Rust type `T: Copy + PartialEq`: `size_of::<T>()`, how `size`
bytes of memory are reinterpreted as a `T` (`none`: the bytes are not a valid `T`, so producing it
is undefined behaviour), how a `T` lies in memory, and `T::eq`. -/
structure MemTy (α : Type) where
  size : Nat
  load : Bytes → Option α
  store : α → Bytes
  eq : α → α → Bool

/-- The bytes of an integer in memory, least significant first, on `k` bytes. -/
def memLE : (k : Nat) → BitVec w → Bytes
  | 0, _ => []
  | k + 1, x => x.setWidth 8 :: memLE k (x >>> 8)

/-- The integer stored least significant byte first. -/
def loadLE (w : Nat) : Bytes → BitVec w
  | [] => 0
  | b :: bs => b.setWidth w ||| (loadLE w bs <<< 8)

/-- A `k`-byte integer type (`u32`, `i32`, `u64`, `i64`) in the memory of target `T`. -/
def MemTy.int (T : Target) (k : Nat) : MemTy (BitVec (8 * k)) where
  size := k
  load bs := some (if T.bigEndian then loadLE _ bs.reverse else loadLE _ bs)
  store x := if T.bigEndian then (memLE k x).reverse else memLE k x
  eq a b := a == b

/-- IEEE 754 binary32 equality on bit patterns: NaNs differ from everything, `0.0 == -0.0`. -/
def f32Eq (a b : BitVec 32) : Bool :=
  let nan (x : BitVec 32) : Bool := 0x7f800000#32 < (x &&& 0x7fffffff#32)
  if nan a || nan b then false
  else if (a &&& 0x7fffffff#32) == 0 && (b &&& 0x7fffffff#32) == 0 then true
  else a == b

/-- IEEE 754 binary64 equality on bit patterns. -/
def f64Eq (a b : BitVec 64) : Bool :=
  let nan (x : BitVec 64) : Bool := 0x7ff0000000000000#64 < (x &&& 0x7fffffffffffffff#64)
  if nan a || nan b then false
  else if (a &&& 0x7fffffffffffffff#64) == 0 && (b &&& 0x7fffffffffffffff#64) == 0 then true
  else a == b

/-- `f32`, represented by its bit pattern. -/
def MemTy.f32 (T : Target) : MemTy (BitVec (8 * 4)) := { MemTy.int T 4 with eq := f32Eq }
/-- `f64`, represented by its bit pattern. -/
def MemTy.f64 (T : Target) : MemTy (BitVec (8 * 8)) := { MemTy.int T 8 with eq := f64Eq }

/-- `bool`: one byte, only `0` and `1` are valid. -/
def MemTy.bool : MemTy Bool where
  size := 1
  load bs := if bs = [0] then some false else if bs = [1] then some true else none
  store b := if b then [1] else [0]
  eq a b := a == b

/-- reader.rs 720-737, `enum PackedFixed`. A `Borrowed` slice is its contents. -/
inductive PackedFixed (α : Type) where
  | noDataYet
  | borrowed (bytes : Bytes)
  | owned (v : List α)
deriving DecidableEq, Repr

/-- Reinterpret memory as consecutive elements of `size` bytes; `none` if some element is invalid.
Models what the elements of a `Vec<T>` are after its buffer has been filled with `bs`. -/
def MemTy.loadAll (M : MemTy α) : (n : Nat) → Bytes → Option (List α)
  | 0, _ => some []
  | n + 1, bs =>
    match M.load (bs.take M.size), M.loadAll n (bs.drop M.size) with
    | some a, some as => some (a :: as)
    | _, _ => none

namespace PackedFixed

variable {α : Type} (M : MemTy α)

/-- reader.rs 742-748, `PackedFixed::len`. Dividing by `size_of::<T>() == 0` panics. -/
def len : PackedFixed α → Out Nat
  | borrowed bytes => if M.size = 0 then .panic else .ok (bytes.length / M.size)
  | owned v => .ok v.length
  | noDataYet => .ok 0

/-- reader.rs 824-830, `PackedFixed::is_empty`. -/
def is_empty : PackedFixed α → Bool
  | noDataYet => true
  | borrowed bytes => bytes.isEmpty
  | owned v => v.isEmpty

/-- reader.rs 833-845, `make_vec_from_unaligned_buf`: `Vec::with_capacity(len)`, then
`ptr::copy` of *all* `bytes.len()` bytes into it, then `set_len(len)`.
A copy larger than the allocation is `ub`; so is an element that is not a valid `T`. -/
def make_vec_from_unaligned_buf : PackedFixed α → Out (List α)
  | borrowed bytes =>
    if M.size = 0 then .panic
    else
      let n := bytes.length / M.size
      if n * M.size < bytes.length then .ub
      else match M.loadAll n bytes with
        | some v => .ok v
        | none => .ub
  | _ => .panic

/-- reader.rs 848-853, `make_owned_variant_from_unaligned_buf`. -/
def make_owned_variant_from_unaligned_buf : PackedFixed α → Out (PackedFixed α)
  | borrowed bytes =>
    match make_vec_from_unaligned_buf M (borrowed bytes) with
    | .ok v => .ok (owned v)
    | .err e => .err e
    | .panic => .panic
    | .ub => .ub
    | .timeout => .timeout
  | _ => .panic

/-- reader.rs 752-760, `PackedFixed::own` (returns the new `self`). -/
def own : PackedFixed α → Out (PackedFixed α)
  | noDataYet => .ok (owned [])
  | borrowed bytes => make_owned_variant_from_unaligned_buf M (borrowed bytes)
  | owned v => .ok (owned v)

/-- reader.rs 771-777, `PackedFixed::into_vec`. -/
def into_vec : PackedFixed α → Out (List α)
  | noDataYet => .ok []
  | borrowed bytes => make_vec_from_unaligned_buf M (borrowed bytes)
  | owned v => .ok v

/-- reader.rs 784-801, `PackedFixed::at`. The multiplication is on `usize`; the unsafe
`read_unaligned` of `size` bytes at `byte_offset` is `ub` when it leaves the slice or when the
bytes are not a valid `T`. -/
def «at» (T : Target) (index : Nat) : PackedFixed α → Out α
  | borrowed bytes =>
    match T.usizeMul index M.size with
    | .ok byteOffset =>
      if byteOffset ≥ bytes.length then .panic
      else if byteOffset + M.size > bytes.length then .ub
      else match M.load ((bytes.drop byteOffset).take M.size) with
        | some a => .ok a
        | none => .ub
    | _ => .panic
  | owned v =>
    match v[index]? with
    | some a => .ok a
    | none => .panic
  | noDataYet => .panic

/-- reader.rs 804-811, `PackedFixed::to_slice`: the new `self` and the slice. -/
def to_slice (pf : PackedFixed α) : Out (PackedFixed α × List α) :=
  match own M pf with
  | .ok (owned v) => .ok (owned v, v)
  | .ok _ => .panic
  | .err e => .err e
  | .panic => .panic
  | .ub => .ub
  | .timeout => .timeout

/-- reader.rs 814-821, `PackedFixed::to_mut_slice` followed by the caller's in-place update `f`
of the returned `&mut [T]` (a `&mut [T]` cannot change its length, see the theorems). -/
def to_mut_slice (f : List α → List α) (pf : PackedFixed α) : Out (PackedFixed α) :=
  match own M pf with
  | .ok (owned v) => .ok (owned (f v))
  | .ok _ => .panic
  | .err e => .err e
  | .panic => .panic
  | .ub => .ub
  | .timeout => .timeout

/-- reader.rs 867-875 and 911-919, `Iterator::next` of both iterators, on `(self, index)`.
The result is the item and the new index. -/
def next (T : Target) (pf : PackedFixed α) (index : Nat) : Out (Option α × Nat) :=
  match pf.len M with
  | .ok n =>
    if index ≥ n then .ok (none, index)
    else match pf.at M T index with
      | .ok a => .ok (some a, index + 1)
      | .err e => .err e
      | .panic => .panic
      | .ub => .ub
      | .timeout => .timeout
  | _ => .panic

/-- `iter.collect::<Vec<T>>()`: call `next` until it returns `None`. `fuel` bounds the number of
calls; running out of it is `timeout`. -/
def collect (T : Target) (pf : PackedFixed α) : (fuel : Nat) → (index : Nat) → Out (List α)
  | 0, _ => .timeout
  | fuel + 1, index =>
    match pf.next M T index with
    | .ok (none, _) => .ok []
    | .ok (some a, i) =>
      match collect T pf fuel i with
      | .ok as => .ok (a :: as)
      | o => o
    | .err e => .err e
    | .panic => .panic
    | .ub => .ub
    | .timeout => .timeout

/-- reader.rs 960-962, `PartialEq::eq`: `self.into_iter().eq(other)`, i.e. `Iterator::eq`, which
advances both iterators in lock step. -/
def eqLoop (T : Target) (a b : PackedFixed α) : (fuel : Nat) → (i j : Nat) → Out Bool
  | 0, _, _ => .timeout
  | fuel + 1, i, j =>
    match a.next M T i with
    | .ok (none, _) =>
      match b.next M T j with
      | .ok (none, _) => .ok true
      | .ok (some _, _) => .ok false
      | .err e => .err e
      | .panic => .panic
      | .ub => .ub
      | .timeout => .timeout
    | .ok (some x, i') =>
      match b.next M T j with
      | .ok (none, _) => .ok false
      | .ok (some y, j') => if M.eq x y then eqLoop T a b fuel i' j' else .ok false
      | .err e => .err e
      | .panic => .panic
      | .ub => .ub
      | .timeout => .timeout
    | .err e => .err e
    | .panic => .panic
    | .ub => .ub
    | .timeout => .timeout

/-- reader.rs 933-948, the three `From` impls for byte containers. -/
def fromBytes (bytes : Bytes) : PackedFixed α := borrowed bytes
/-- reader.rs 951-955, `From<Vec<T>>`. -/
def fromVec (v : List α) : PackedFixed α := owned v

end PackedFixed

end QP
