import Verif.Model.Owned
import Verif.Spec.Slices
/-!
# Owned wrappers, with the memory they point into

The `FooOwned` types of types.rs 1780-1898 again (see `Model/Owned.lean`), at the level of allocations: what the strings of a decoded message
point to, and what safe code that uses the wrappers can do to them.

Simplification: of a message, only its strings, byte strings and borrowed packed buffers are kept, as a list (in the order of `RVal.slices`);
numbers own their data and cannot dangle. A `Vec<u8>` is one allocation; moving a `Vec` or a `Box` does not move the allocation.
-/

namespace QP.Gen
open QP.Pbrs BytesReader

/-- A `Cow` or `PackedFixed` in a message: it owns its data, borrows data of the program text, or borrows `len` bytes at `off` of allocation `a`. -/
inductive Leaf where
  | own (b : Bytes)
  | static (b : Bytes)
  | slice (a off len : Nat)
deriving DecidableEq

/-- types.rs 1797-1801, `struct {name}OwnedInner`: the allocation of `buf` and the strings of `proto`. -/
structure Cell where
  buf : Nat
  proto : List Leaf

/-- The state of a program that uses wrappers: the live allocations, its `Vec<u8>` variables (by allocation), its wrapper variables. -/
structure World where
  heap : Nat → Option Bytes
  vecs : Nat → Bool
  owned : Nat → Option Cell

/-- Before the program. -/
def World.start : World := ⟨fun _ => Option.none, fun _ => false, fun _ => Option.none⟩

/-- Replace one entry of a table. -/
def put {α : Type} (f : Nat → α) (k : Nat) (x : α) : Nat → α := fun i => if i = k then x else f i

/-- Read through a `Cow`: undefined behaviour if the allocation is gone. -/
def Leaf.read (heap : Nat → Option Bytes) : Leaf → Out Bytes
  | .own b => .ok b
  | .static b => .ok b
  | .slice a off len =>
    match heap a with
    | Option.none => .ub
    | Option.some b =>
      match getRange b off (off + len) with
      | Option.some x => .ok x
      | Option.none => .ub

/-- Read all strings of a message. -/
def readLeaves (heap : Nat → Option Bytes) : List Leaf → Out (List Bytes)
  | [] => .ok []
  | l :: ls =>
    match l.read heap with
    | .ok x =>
      match readLeaves heap ls with
      | .ok xs => .ok (x :: xs)
      | o => o
    | .err e => .err e
    | .panic => .panic
    | .ub => .ub
    | .timeout => .timeout

/-- What the caller of `proto_mut` stores in a string of the message: what some string of it held, its own data, data of the program text, or a
borrow of one of its `Vec`s. -/
inductive Src where
  | keep (i : Nat)
  | own (b : Bytes)
  | static (b : Bytes)
  | borrow (a off len : Nat)

/-- Operations of a program in safe Rust. Variables are numbers; a `Vec` variable is named by its allocation. -/
inductive Op where
  /-- `let a = vec![…]` -/
  | vec (a : Nat) (b : Bytes)
  /-- `drop(a)` -/
  | dropVec (a : Nat)
  /-- `let w = FooOwned::try_from(a)`, with `Foo` message `idx`; on an error there is no `w`. -/
  | tryFrom (w a : Nat) (idx : MessageIndex)
  /-- `let w = FooOwned::from(foo)`, `foo : Foo<'static>`; `a` is the allocation of `Vec::new()`. -/
  | fromProto (w a : Nat) (proto : List Src)
  /-- Assign strings of `*w.proto_mut()`. -/
  | protoMut (w : Nat) (proto : List Src)
  /-- `mem::swap(w.proto_mut(), w'.proto_mut())` -/
  | swap (w w' : Nat)
  /-- `let w' = w` -/
  | move (w w' : Nat)
  /-- `drop(w)` -/
  | drop (w : Nat)

/-- The string that an assignment stores. With `proto_mut<'a>(&'a mut self) -> &'a mut Foo<'a>` the compiler accepts any borrow that lasts as long
as the call. -/
def Src.Stores (W : World) (old : List Leaf) : Src → Leaf → Prop
  | .keep i, l => old[i]? = Option.some l
  | .own b, l => l = .own b
  | .static b, l => l = .static b
  | .borrow a off len, l => W.vecs a = true ∧ l = .slice a off len ∧ ∃ b x, W.heap a = Option.some b ∧ getRange b off (off + len) = Option.some x

/-- The strings that assignments store. -/
def StoresAll (W : World) (old : List Leaf) : List Src → List Leaf → Prop
  | [], ls => ls = []
  | s :: src, ls => ∃ l ls', ls = l :: ls' ∧ s.Stores W old l ∧ StoresAll W old src ls'

/-- The message that `from_reader` returned, as pointers into the buffer `a` that it read: strings borrow from the buffer, or from the program text
(a default). -/
def Borrows (a : Nat) (b : Bytes) (v : RVal) (ls : List Leaf) : Prop :=
  readLeaves (fun i => if i = a then Option.some b else Option.none) ls = .ok v.slices ∧ ∀ l ∈ ls, (∃ off len, l = .slice a off len) ∨ ∃ x, l = .static x

/-- One operation. `try_from`: types.rs 1804-1820 and 1856-1861; `from`: 1875-1885; `proto_mut`: 1838-1843; dropping a wrapper drops its `Box`,
and with it `buf`. -/
def Step (C : Ctx) (W : World) : Op → World → Prop
  | .vec a b, W' => W.heap a = Option.none ∧ W' = { W with heap := put W.heap a (Option.some b), vecs := put W.vecs a true }
  | .dropVec a, W' => W.vecs a = true ∧ W' = { W with heap := put W.heap a Option.none, vecs := put W.vecs a false }
  | .tryFrom w a idx, W' => W.vecs a = true ∧ W.owned w = Option.none ∧ ∃ b, W.heap a = Option.some b ∧
      ((∃ v ls, tryFromSlice C (b.length + 1) idx b = .ok v ∧ Borrows a b v ls ∧ W' = { W with vecs := put W.vecs a false, owned := put W.owned w (Option.some ⟨a, ls⟩) }) ∨
       ((∃ e, tryFromSlice C (b.length + 1) idx b = .err e) ∧ W' = { W with heap := put W.heap a Option.none, vecs := put W.vecs a false }))
  | .fromProto w a src, W' => W.heap a = Option.none ∧ W.owned w = Option.none ∧ ∃ ls, StoresAll W [] src ls ∧
      (∀ l ∈ ls, ∀ i off len, l ≠ .slice i off len) ∧
      W' = { W with heap := put W.heap a (Option.some []), owned := put W.owned w (Option.some ⟨a, ls⟩) }
  | .protoMut w src, W' => ∃ c ls, W.owned w = Option.some c ∧ StoresAll W c.proto src ls ∧
      W' = { W with owned := put W.owned w (Option.some { c with proto := ls }) }
  | .swap w w', W' => ∃ c c', w ≠ w' ∧ W.owned w = Option.some c ∧ W.owned w' = Option.some c' ∧
      W' = { W with owned := put (put W.owned w (Option.some { c with proto := c'.proto })) w' (Option.some { c' with proto := c.proto }) }
  | .move w w', W' => ∃ c, w ≠ w' ∧ W.owned w = Option.some c ∧ W.owned w' = Option.none ∧
      W' = { W with owned := put (put W.owned w Option.none) w' (Option.some c) }
  | .drop w, W' => ∃ c, W.owned w = Option.some c ∧ W' = { W with heap := put W.heap c.buf Option.none, owned := put W.owned w Option.none }

/-- The runs of a program. -/
inductive Run (C : Ctx) : List Op → World → Prop where
  | start : Run C [] World.start
  | step {ops : List Op} {W W' : World} {op : Op} : Run C ops W → Step C W op W' → Run C (ops ++ [op]) W'

/-- `w.proto()` and reading all its strings (`Debug`, `try_into`, …). -/
def World.proto (W : World) (w : Nat) : Option (Out (List Bytes)) := (W.owned w).map fun c => readLeaves W.heap c.proto

/-- `w.buf()` -/
def World.buf (W : World) (w : Nat) : Option (Out Bytes) :=
  (W.owned w).map fun c =>
    match W.heap c.buf with
    | Option.some b => .ok b
    | Option.none => .ub

end QP.Gen
