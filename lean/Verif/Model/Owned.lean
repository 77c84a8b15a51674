import Verif.Model.Gen
/-!
# Owned wrappers

The `FooOwned` types and `TryFrom` impls pb-rs generates (types.rs 1780-1898, 1919-1935, used at
types.rs 1543-1549). Lifetimes, `Pin` and the `transmute`s are not modelled: a value that borrows from the
buffer is modelled with the bytes it borrows.
-/

namespace QP.Gen
open QP.Pbrs BytesReader

/-- types.rs 1797-1801, `struct {name}OwnedInner` (and the `{name}Owned` around it, 1823-1825). -/
structure Owned where
  buf : Bytes
  proto : Option RVal
deriving Inhabited

/-- types.rs 1804-1820, `{name}OwnedInner::new`, and 1856-1861, `TryFrom<Vec<u8>>`: builds the struct with no
proto, reads `self.buf`, stores the result. `fuel` bounds the reader's loops and recursion. -/
def Owned.tryFrom (C : Ctx) (fuel : Nat) (idx : MessageIndex) (buf : Bytes) : Out Owned :=
  let inner : Owned := { buf := buf, proto := Option.none }
  match (fromReader C fuel idx inner.buf (from_bytes inner.buf)).1 with
  | .ok v => .ok { inner with proto := Option.some v }
  | .err e => .err e
  | .panic => .panic
  | .ub => .ub
  | .timeout => .timeout

/-- types.rs 1829-1831, `buf`. -/
def Owned.getBuf (o : Owned) : Bytes := o.buf

/-- types.rs 1833-1836, `proto`: `unwrap` panics on `None`. -/
def Owned.getProto (o : Owned) : Out RVal :=
  match o.proto with
  | Option.some v => .ok v
  | Option.none => .panic

/-- types.rs 1838-1843, `proto_mut`, and the caller's mutation `f` through the reference it returns. -/
def Owned.protoMut (f : RVal → RVal) (o : Owned) : Out Owned :=
  match o.proto with
  | Option.some v => .ok { o with proto := Option.some (f v) }
  | Option.none => .panic

/-- types.rs 1864-1873, `TryInto<Vec<u8>>`: `write_message` into an empty vector, no length prefix. `n` bounds the
nesting depth. -/
def Owned.tryInto (C : Ctx) (n : Nat) (idx : MessageIndex) (o : Owned) : Out Bytes :=
  match o.proto with
  | Option.none => .panic
  | Option.some v =>
    match (writeImpl C n idx).write_message v VecWriter ⟨[]⟩ with
    | (.ok _, w) => .ok w.vec
    | (.err e, _) => .err e
    | (.panic, _) => .panic
    | (.ub, _) => .ub
    | (.timeout, _) => .timeout

/-- types.rs 1875-1885, `From<{name}<'static>>`. -/
def Owned.fromProto (v : RVal) : Owned := { buf := [], proto := Option.some v }

/-- types.rs 1919-1933, `TryFrom<&[u8]>` of messages without a lifetime parameter. -/
def tryFromSlice (C : Ctx) (fuel : Nat) (idx : MessageIndex) (buf : Bytes) : Out RVal :=
  (fromReader C fuel idx buf (from_bytes buf)).1

end QP.Gen
