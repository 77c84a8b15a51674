/-!
# Common vocabulary of the model

Rust results, the compilation target, `usize` arithmetic and the state monad in which every
`&mut self` method of the runtime crate is modelled.
-/

namespace QP

/-- A byte of a Rust `&[u8]`. -/
abbrev Byte := BitVec 8

/-- A Rust `&[u8]` / `Vec<u8>`. -/
abbrev Bytes := List Byte

/-- `quick-protobuf/src/errors.rs` 4-30, `enum Error`.
Simplification: the payloads of `Io` and `Utf8` and the text of `Deprecated` are dropped;
`Message(String)` is never built by the crate. -/
inductive Error where
  | Io
  | Utf8
  | Deprecated
  | UnknownWireType (t : Byte)
  | Varint
  | Message
  | Map (t : Byte)
  | UnexpectedEndOfBuffer
  | OutputBufferTooSmall
deriving DecidableEq, Repr

/-- Observable outcome of running a piece of the code.
* `ok`/`err` are `Result::Ok`/`Result::Err`;
* `panic` is a Rust panic (explicit, slice indexing, or arithmetic overflow with checks on);
* `ub` is an out-of-bounds memory access performed inside an `unsafe` block;
* `timeout` says a loop (or recursion) has not finished within the given fuel. -/
inductive Out (α : Type) where
  | ok (a : α)
  | err (e : Error)
  | panic
  | ub
  | timeout
deriving DecidableEq, Repr

/-- The Rust target and build profile the crate is compiled for. -/
structure Target where
  /-- width of `usize`: 64, or 32 -/
  usizeBits : Nat
  /-- `true`: integer overflow panics (dev profile); `false`: it wraps (release profile) -/
  overflowChecks : Bool
  /-- byte order of the machine (only matters where the code reinterprets raw memory) -/
  bigEndian : Bool
deriving DecidableEq, Repr

/-- A debug build on a little-endian 64 bit machine. -/
def Target.debug64 : Target := ⟨64, true, false⟩
/-- A release build on a little-endian 64 bit machine. -/
def Target.release64 : Target := ⟨64, false, false⟩

/-- Rust `a + b` on `usize`. -/
def Target.usizeAdd (T : Target) (a b : Nat) : Out Nat :=
  if a + b < 2 ^ T.usizeBits then .ok (a + b)
  else if T.overflowChecks then .panic
  else .ok ((a + b) % 2 ^ T.usizeBits)

/-- Rust `a - b` on `usize`. -/
def Target.usizeSub (T : Target) (a b : Nat) : Out Nat :=
  if b ≤ a then .ok (a - b)
  else if T.overflowChecks then .panic
  else .ok (a + 2 ^ T.usizeBits - b)

/-- Rust `a * b` on `usize`. -/
def Target.usizeMul (T : Target) (a b : Nat) : Out Nat :=
  if a * b < 2 ^ T.usizeBits then .ok (a * b)
  else if T.overflowChecks then .panic
  else .ok ((a * b) % 2 ^ T.usizeBits)

/-- Slice indexing `bytes.get(a..b)`: `None` when `a > b` or `b > len`. -/
def getRange (bytes : Bytes) (a b : Nat) : Option Bytes :=
  if a ≤ b ∧ b ≤ bytes.length then some ((bytes.drop a).take (b - a)) else none

/-- A method taking `&mut self` (state `σ`) and returning `Result<α>` (or panicking …).
The new state is returned in every case, because a Rust caller can inspect `self` after an `Err`. -/
def SM (σ α : Type) := σ → Out α × σ

namespace SM

def pure {σ α} (a : α) : SM σ α := fun s => (.ok a, s)

/-- The `?` operator: continue on `Ok`, otherwise return at once with the state as it is. -/
def bind {σ α β} (m : SM σ α) (f : α → SM σ β) : SM σ β := fun s =>
  match m s with
  | (.ok a, s') => f a s'
  | (.err e, s') => (.err e, s')
  | (.panic, s') => (.panic, s')
  | (.ub, s') => (.ub, s')
  | (.timeout, s') => (.timeout, s')

instance {σ} : Monad (SM σ) where
  pure := pure
  bind := bind

/-- Return `Err(e)`. -/
def throw {σ α} (e : Error) : SM σ α := fun s => (.err e, s)
/-- Read the state. -/
def get {σ} : SM σ σ := fun s => (.ok s, s)
/-- Overwrite the state. -/
def set {σ} (s : σ) : SM σ Unit := fun _ => (.ok (), s)
/-- A state-independent outcome. -/
def lift {σ α} (o : Out α) : SM σ α := fun s => (o, s)

/-- `opt.ok_or(e)?` -/
def okOr {σ α} (o : Option α) (e : Error) : SM σ α := fun s =>
  match o with
  | some a => (.ok a, s)
  | none => (.err e, s)

end SM

end QP
