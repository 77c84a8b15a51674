import Verif.Model.Gen
import Verif.Model.Rust.Syntax
/-!
# A fragment of Rust: meaning

What the expressions, statements and function bodies of `Verif/Model/Rust/Syntax.lean` do when they are run. The runtime crate's
methods are those of `Verif/Model/Reader.lean` and `Verif/Model/Writer.lean`.

* Every value carries its type (without lifetimes). `&e` and `*e` are seen in the types; a reference or a `Box` holds its contents.
* Something that does not type-check (a field that does not exist, an argument of a wrong type, a method the type does not have) is
  *stuck*: the outcome is `panic`. So "does not panic" below also says that the code that runs is well-typed.
* Method calls dereference their receiver as Rust does; arguments of type `&str` and `&[u8]` are deref-coerced.
* `e?` and `return Err(e)` leave the function (or closure) with the error.

Not modelled: moves and borrows, `usize` overflow in sums (as in `Gen`), evaluation costs.
-/

namespace QP.Rust
open QP.Pbrs QP.Gen QP.BytesReader

/-- Values. `data t v`: of a data type. `usize`: also unsuffixed numbers. `ok`, `err`: of type `Result`; `error`: an error itself.
`reader`, `writer`: the `BytesReader` or `Writer`, whose contents are the state of the monad. `input`: the slice that is read. -/
inductive Val where
  | data (t : Ty) (v : RVal)
  | usize (n : Nat)
  | unit
  | ok (v : Val)
  | err (e : Error)
  | error (e : Error)
  | pair (a b : Val)
  | iter (l : List Val)
  | reader
  | writer
  | input (b : Bytes)

/-- What code can refer to: the types of the program, and their functions. -/
structure World where
  T : Target
  /-- bound on the iterations of loops -/
  fuel : Nat
  /-- fields of a struct -/
  structs : Path → Option (List (Str × Ty))
  /-- the variants of an enum with contents (all but `None`) -/
  oneofs : Path → Option (List (Str × Ty))
  /-- the numbers of the variants of an enum -/
  enums : Path → Option (List (BitVec 32))
  /-- `p::default()` -/
  default : Path → RVal
  /-- `p::from_reader` -/
  read : Path → Bytes → RM RVal
  /-- the `MessageWrite` of a type -/
  write : Path → MessageWrite RVal
  /-- what a text copied from the schema stands for -/
  const : Ty → Str → RVal
  /-- the type whose function is running -/
  self : Path

/-- Local variables. -/
abbrev Env := Var → Option Val

/-- A variable gets a value. -/
def Env.set (env : Env) (x : Var) (v : Val) : Env := fun y => if y = x then some v else env y

section
variable {σ : Type}

/-- Ill-typed code. -/
def stuck {α : Type} : SM σ α := SM.lift .panic

/-- An argument: a value, or a function. -/
inductive Arg (σ : Type) where
  | val (v : Val)
  | fn (f : List Val → SM σ Val)

/-- A call that returns a `Result`. -/
def result (a : SM σ Val) : SM σ Val := fun s =>
  match a s with
  | (.ok v, s) => (.ok (.ok v), s)
  | (.err e, s) => (.ok (.err e), s)
  | (.panic, s) => (.panic, s)
  | (.ub, s) => (.ub, s)
  | (.timeout, s) => (.timeout, s)

/-- `v?`. -/
def unwrap : Val → SM σ Val
  | .ok v => pure v
  | .err e => SM.throw e
  | _ => stuck

/-- The value must have the type. -/
def expect (t : Ty) : Val → SM σ RVal
  | .data t' v => if t' = t then pure v else stuck
  | _ => stuck

/-- The value must be `()`. -/
def expectUnit : Val → SM σ Unit
  | .unit => pure ()
  | _ => stuck

/-- The value must be a `usize`. -/
def expectUsize : Val → SM σ Nat
  | .usize n => pure n
  | _ => stuck

/-- The value must be a `bool`. -/
def expectBool : Val → SM σ Bool
  | .data .bool (.bool b) => pure b
  | _ => stuck

/-- A type without its references and boxes. -/
def Ty.strip : Ty → Ty
  | .ref t => t.strip
  | .box t => t.strip
  | t => t

/-- A receiver, dereferenced. -/
def Val.auto : Val → Val
  | .data t v => .data t.strip v
  | v => v

/-! ## Types -/

/-- `size_of` for the element types of packed fields. -/
def Ty.size : Ty → Option Nat
  | .i32 | .u32 | .f32 => some 4
  | .i64 | .u64 | .f64 => some 8
  | _ => none

/-- `T::default()`. -/
def tyDefault (W : World) : Ty → RVal
  | .i32 | .u32 | .f32 => .w32 0
  | .i64 | .u64 | .f64 => .w64 0
  | .bool => .bool false
  | .cowStr | .cowBytes | .string | .vecU8 => .bytes []
  | .adt p _ => W.default p
  | .option _ => .none
  | .vec _ => .vec []
  | .packed t => if t.size = some 8 then .pf64 .noDataYet else .pf32 .noDataYet
  | .kvmap _ _ => .map []
  | _ => .none

/-- `v as t`. -/
def cast (W : World) (t : Ty) : Val → Option Val
  | .data .i32 (.w32 x) => match t with
    | .u64 => some (.data .u64 (.w64 (x.signExtend 64)))
    | _ => none
  | .data .u32 (.w32 x) => match t with
    | .u64 => some (.data .u64 (.w64 (x.setWidth 64)))
    | _ => none
  | .data .i64 (.w64 x) => match t with
    | .u64 => some (.data .u64 (.w64 x))
    | _ => none
  | .data .u64 (.w64 x) => match t with
    | .u64 => some (.data .u64 (.w64 x))
    | _ => none
  | .data .bool (.bool b) => match t with
    | .u64 => some (.data .u64 (.w64 (if b then 1 else 0)))
    | _ => none
  | .data (.adt p _) (.w32 x) =>
    if (W.enums p).isSome then match t with
      | .u64 => some (.data .u64 (.w64 (x.signExtend 64)))
      | .i32 => some (.data .i32 (.w32 x))
      | _ => none
    else none
  | _ => none

/-- `a == b` on values of the same type. -/
def eqVal (W : World) : Val → Val → Option Bool
  | .data t a, .data t' b =>
    if t = t' then match t, a, b with
      | .f32, .w32 x, .w32 y => some (f32Eq x y)
      | .f64, .w64 x, .w64 y => some (f64Eq x y)
      | .i32, .w32 x, .w32 y | .u32, .w32 x, .w32 y => some (x == y)
      | .i64, .w64 x, .w64 y | .u64, .w64 x, .w64 y => some (x == y)
      | .bool, .bool x, .bool y => some (x == y)
      | .cowStr, .bytes x, .bytes y | .cowBytes, .bytes x, .bytes y | .string, .bytes x, .bytes y | .vecU8, .bytes x, .bytes y =>
        some (x == y)
      | .adt p _, .w32 x, .w32 y => if (W.enums p).isSome then some (x == y) else none
      | _, _, _ => none
    else none
  | _, _ => none

/-- `&e`. -/
def mkRef : Val → Option Val
  | .data t v => some (.data (.ref t) v)
  | _ => none

/-- `*e`. -/
def deref : Val → Option Val
  | .data (.ref t) v => some (.data t v)
  | .data (.box t) v => some (.data t v)
  | _ => none

/-- The text or bytes of a deref-coerced argument. -/
def coerce (text : Bool) : Val → Option Bytes
  | .data (.ref t) (.bytes b) => match t.strip, text with
    | .cowStr, true | .string, true | .str, true => some b
    | .cowBytes, false | .vecU8, false | .slice, false => some b
    | _, _ => none
  | _ => none

/-- The place and type of a field. -/
def World.field (W : World) (p : Path) (f : Str) : Option (Nat × Ty) :=
  (W.structs p).bind fun fs =>
    (fs.findIdx? (fun g => g.1 == f)).bind fun i => (fs[i]?).map fun g => (i, g.2)

/-- `e.f`. -/
def getField (W : World) (f : Str) : Val → Option Val
  | .data t (.struct slots) => match t.strip with
    | .adt p _ => (W.field p f).bind fun j => (slots[j.1]?).map fun v => .data j.2 v
    | _ => none
  | _ => none

/-! ## Functions and methods -/

/-- Functions and constructors. -/
def callFn (W : World) (f : Fn) (inferred : List Ty) (args : List Val) : SM σ Val :=
  match f, inferred, args with
  | .some, _, [.data t v] => pure (.data (.option t) (.some v))
  | .ok, _, [v] => pure (.ok v)
  | .err, _, [.error e] => pure (.err e)
  | .boxNew, _, [.data t v] => pure (.data (.box t) v)
  | .cowBorrowed, _, [.data (.ref .str) v] => pure (.data .cowStr v)
  | .cowBorrowed, _, [.data (.ref .slice) v] => pure (.data .cowBytes v)
  | .sizeofVarint, _, [.data .u64 (.w64 x)] => pure (.usize (sizeof_varint x))
  | .sizeofSint32, _, [.data .i32 (.w32 x)] => pure (.usize (sizeof_sint32 x))
  | .sizeofSint64, _, [.data .i64 (.w64 x)] => pure (.usize (sizeof_sint64 x))
  | .sizeofLen, _, [.usize n] => pure (.usize (sizeof_len n))
  | .vecNew, [t], [] => pure (.data (.vec t) (.vec []))
  | .vecU8New, _, [] => pure (.data .vecU8 (.bytes []))
  | .hashMapNew, [.kvmap k v], [] => pure (.data (.kvmap k v) (.map []))
  | .packedFrom, _, [.data (.vec t) (.vec [])] =>
    match t.size with
    | some 8 => pure (.data (.packed t) (.pf64 (.owned [])))
    | some _ => pure (.data (.packed t) (.pf32 (.owned [])))
    | none => stuck
  | .selfDefault, _, [] => pure (.data (.adt W.self false) (W.default W.self))
  | .default p, _, [] => pure (.data (.adt p false) (W.default p))
  | .variant p x, _, [.data t v] =>
    match W.oneofs p with
    | some vs =>
      match vs.findIdx? (fun g => g.1 == x) with
      | some i => if (vs[i]?).map (·.2) = some t then pure (.data (.adt p false) (.choice i v)) else stuck
      | none => stuck
    | none => stuck
  | _, _, _ => stuck

/-- `iter.map(f)`. -/
def mapIter (f : List Val → SM σ Val) : List Val → SM σ (List Val)
  | [] => pure []
  | v :: vs => do
    let w ← f [v]
    let ws ← mapIter f vs
    pure (w :: ws)

/-- `iter.sum::<usize>()`. -/
def sumIter : List Val → SM σ Nat
  | [] => pure 0
  | v :: vs => do
    let n ← expectUsize v
    let k ← sumIter vs
    pure (n + k)

/-- Methods without arguments, whose receiver is dereferenced. -/
def callAuto (W : World) (m : Meth) (recv : Val) : SM σ Val :=
  match m, recv with
  | .iter, .data (.vec t) (.vec l) => pure (.iter (l.map (.data (.ref t))))
  | .iter, .data (.kvmap k v) (.map l) => pure (.iter (l.map fun e => .pair (.data (.ref k) e.1) (.data (.ref v) e.2)))
  | .len, .data (.vec _) (.vec l) => pure (.usize l.length)
  | .len, .data (.packed _) (.pf64 p) => pure (.usize (pfLen (MemTy.int W.T 8) p))
  | .len, .data (.packed _) (.pf32 p) => pure (.usize (pfLen (MemTy.int W.T 4) p))
  | .len, .data .cowStr (.bytes b) => pure (.usize b.length)
  | .len, .data .cowBytes (.bytes b) => pure (.usize b.length)
  | .len, .data .string (.bytes b) => pure (.usize b.length)
  | .len, .data .vecU8 (.bytes b) => pure (.usize b.length)
  | .isEmpty, .data (.vec _) (.vec l) => pure (.data .bool (.bool l.isEmpty))
  | .isEmpty, .data (.packed _) (.pf64 p) => pure (.data .bool (.bool p.is_empty))
  | .isEmpty, .data (.packed _) (.pf32 p) => pure (.data .bool (.bool p.is_empty))
  | .getSize, .data (.adt p _) v => if (W.structs p).isSome then pure (.usize ((W.write p).get_size v)) else stuck
  | _, _ => stuck

/-- Methods of values other than the reader and the writer. -/
def callMeth (W : World) (recv : Val) (m : Meth) (args : List (Arg σ)) : SM σ Val :=
  match m, recv, args with
  | .asRef, .data (.option t) v, [] => pure (.data (.option (.ref t)) v)
  | .mapOr, .data (.option t) (.some x), [.val _, .fn f] => f [.data t x]
  | .mapOr, .data (.option _) .none, [.val d, .fn _] => pure d
  | .map, .ok v, [.fn f] => do
    let w ← f [v]
    pure (.ok w)
  | .map, .err e, [.fn _] => pure (.err e)
  | .map, .iter l, [.fn f] => do
    let ws ← mapIter f l
    pure (.iter ws)
  | .sum, .iter l, [] => do
    let n ← sumIter l
    pure (.usize n)
  | .toOwned, .data (.ref .str) (.bytes b), [] => pure (.data .string (.bytes b))
  | .toOwned, .data (.ref .slice) (.bytes b), [] => pure (.data .vecU8 (.bytes b))
  | .toString_, .data (.ref .str) (.bytes b), [] => pure (.data .string (.bytes b))
  | .toVec, .data (.ref .slice) (.bytes b), [] => pure (.data .vecU8 (.bytes b))
  | .iter, v, [] => callAuto W .iter v.auto
  | .len, v, [] => callAuto W .len v.auto
  | .isEmpty, v, [] => callAuto W .isEmpty v.auto
  | .getSize, v, [] => callAuto W .getSize v.auto
  | _, _, _ => stuck

/-- The methods of the reader, or of the writer. -/
structure Host (σ : Type) where
  meth : Meth → Option Ty → List Ty → List (Arg σ) → SM σ Val

/-- A function without reader and writer. -/
def noHost : Host σ := ⟨fun _ _ _ _ => stuck⟩

/-- A closure called with the reader and its input, whose result has a type. -/
def readWith (f : List Val → RM Val) (b : Bytes) (t : Ty) : RM RVal := do
  let v ← f [.reader, .input b]
  let v ← unwrap v
  expect t v

/-- `BytesReader::read_*`, `reader.rs`. -/
def readKind (W : World) (k : Kind) (tf : Option Ty) (inferred : List Ty) (b : Bytes) : RM Val :=
  match k, tf, inferred with
  | .int32, none, _ => do let x ← read_int32 b; pure (.data .i32 (.w32 x))
  | .int64, none, _ => do let x ← read_int64 b; pure (.data .i64 (.w64 x))
  | .uint32, none, _ => do let x ← read_uint32 b; pure (.data .u32 (.w32 x))
  | .uint64, none, _ => do let x ← read_uint64 b; pure (.data .u64 (.w64 x))
  | .sint32, none, _ => do let x ← read_sint32 b; pure (.data .i32 (.w32 x))
  | .sint64, none, _ => do let x ← read_sint64 b; pure (.data .i64 (.w64 x))
  | .bool, none, _ => do let x ← read_bool b; pure (.data .bool (.bool x))
  | .fixed64, none, _ => do let x ← read_fixed64 W.T b; pure (.data .u64 (.w64 x))
  | .sfixed64, none, _ => do let x ← read_sfixed64 W.T b; pure (.data .i64 (.w64 x))
  | .double, none, _ => do let x ← read_double W.T b; pure (.data .f64 (.w64 x))
  | .fixed32, none, _ => do let x ← read_fixed32 W.T b; pure (.data .u32 (.w32 x))
  | .sfixed32, none, _ => do let x ← read_sfixed32 W.T b; pure (.data .i32 (.w32 x))
  | .float, none, _ => do let x ← read_float W.T b; pure (.data .f32 (.w32 x))
  | .string, none, _ => do let x ← read_string W.T b; pure (.data (.ref .str) (.bytes x))
  | .bytes, none, _ => do let x ← read_bytes W.T b; pure (.data (.ref .slice) (.bytes x))
  | .enum, none, [.adt p l] =>
    match W.enums p with
    | some nums => do let x ← read_enum (enumFrom nums) b; pure (.data (.adt p l) (.w32 x))
    | none => stuck
  | .message, some (.adt p l), _ =>
    if (W.structs p).isSome then do let v ← read_message W.T b (W.read p b); pure (.data (.adt p l) v) else stuck
  | _, _, _ => stuck

/-- The methods of `BytesReader` (`reader.rs`). -/
def readerHost (W : World) : Host BytesReader := ⟨fun m tf inferred args =>
  match m, tf, inferred, args with
  | .read k, tf, inferred, [.val (.input b)] => result (readKind W k tf inferred b)
  | .readPacked, none, [t], [.val (.input b), .fn f] => result do
      let l ← read_packed W.T W.fuel b (readWith f b t)
      pure (.data (.vec t) (.vec l))
  | .readPackedFixed, none, [t], [.val (.input b)] =>
    match t.size with
    | some 8 => result do let p ← read_packed_fixed W.T (MemTy.int W.T 8) b; pure (.data (.packed t) (.pf64 p))
    | some _ => result do let p ← read_packed_fixed W.T (MemTy.int W.T 4) b; pure (.data (.packed t) (.pf32 p))
    | none => stuck
  | .readMap, none, [k, v], [.val (.input b), .fn fk, .fn fv] => result do
      let e ← read_map W.T W.fuel b (tyDefault W k) (tyDefault W v) (readWith fk b k) (readWith fv b v)
      pure (.pair (.data k e.1) (.data v e.2))
  | .readUnknown, none, _, [.val (.input b), .val (.data .u32 (.w32 t))] => result do read_unknown W.T b t; pure .unit
  | .readToEnd, none, _, [] => do read_to_end; pure .unit
  | .isEof, none, _, [] => fun r => (.ok (.data .bool (.bool r.is_eof)), r)
  | .nextTag, none, _, [.val (.input b)] => result do let t ← next_tag b; pure (.data .u32 (.w32 t))
  | _, _, _, _ => stuck⟩

section
variable [WriterBackend σ]

/-- A closure called with the writer. -/
def writeWith (f : List Val → SM σ Val) (args : List Val) : SM σ Unit := do
  let v ← f (.writer :: args)
  let v ← unwrap v
  expectUnit v

/-- `Writer::write_*`, `writer.rs`. -/
def writeKind (W : World) (k : Kind) (v : Val) : SM σ Unit :=
  match k, v with
  | .int32, .data .i32 (.w32 x) => write_int32 x
  | .int64, .data .i64 (.w64 x) => write_int64 x
  | .uint32, .data .u32 (.w32 x) => write_uint32 x
  | .uint64, .data .u64 (.w64 x) => write_uint64 x
  | .sint32, .data .i32 (.w32 x) => write_sint32 x
  | .sint64, .data .i64 (.w64 x) => write_sint64 x
  | .bool, .data .bool (.bool x) => write_bool x
  | .fixed64, .data .u64 (.w64 x) => write_fixed64 x
  | .sfixed64, .data .i64 (.w64 x) => write_sfixed64 x
  | .double, .data .f64 (.w64 x) => write_double x
  | .fixed32, .data .u32 (.w32 x) => write_fixed32 x
  | .sfixed32, .data .i32 (.w32 x) => write_sfixed32 x
  | .float, .data .f32 (.w32 x) => write_float x
  | .enum, .data .i32 (.w32 x) => write_enum x
  | .string, v =>
    match coerce true v with
    | some b => write_string b
    | none => stuck
  | .bytes, v =>
    match coerce false v with
    | some b => write_bytes b
    | none => stuck
  | .message, .data (.ref (.adt p _)) v => if (W.structs p).isSome then write_message (W.write p) v else stuck
  | _, _ => stuck

/-- writer.rs 238-259, `write_packed_with_tag`, with the closures of the program. -/
def writePacked (tag : BitVec 32) (t : Ty) (l : List RVal) (write size : List Val → SM σ Val) : SM σ Unit :=
  if l.isEmpty then pure ()
  else do
    write_tag tag
    let sizes ← mapIter size (l.map (.data (.ref t)))
    let len ← sumIter sizes
    write_varint (BitVec.ofNat 64 len)
    writeEach (fun x => writeWith write [.data (.ref t) x]) l

/-- The methods of `Writer` (`writer.rs`). -/
def writerHost (W : World) : Host σ := ⟨fun m tf _ args =>
  match m, tf, args with
  | .write k, none, [.val v] => result do writeKind W k v; pure .unit
  | .writeWithTag, none, [.val (.usize tag), .fn f] => result do write_with_tag (BitVec.ofNat 32 tag) (writeWith f []); pure .unit
  | .writePackedWithTag, none, [.val (.usize tag), .val (.data (.ref (.vec t)) (.vec l)), .fn f, .fn s] => result do
      writePacked (BitVec.ofNat 32 tag) t l f s; pure .unit
  | .writePackedFixedWithTag, none, [.val (.usize tag), .val (.data (.ref (.packed _)) (.pf64 p))] => result do
      write_packed_fixed_with_tag (MemTy.int W.T 8) (BitVec.ofNat 32 tag) p; pure .unit
  | .writePackedFixedWithTag, none, [.val (.usize tag), .val (.data (.ref (.packed _)) (.pf32 p))] => result do
      write_packed_fixed_with_tag (MemTy.int W.T 4) (BitVec.ofNat 32 tag) p; pure .unit
  | .writeMap, none, [.val (.usize size), .val (.usize tk), .fn fk, .val (.usize tv), .fn fv] => result do
      write_map size (BitVec.ofNat 32 tk) (writeWith fk []) (BitVec.ofNat 32 tv) (writeWith fv []); pure .unit
  | _, _, _ => stuck⟩

end

/-! ## Patterns -/

/-- The outcome of matching: ill-typed, no match, match. -/
inductive Match where
  | stuck
  | no
  | yes (env : Env)

/-- Match a value against a pattern. Matching a reference to an enum with the pattern of a variant gives a reference to the
contents. -/
def matchPat (W : World) (env : Env) : Pat → Val → Match
  | .wild, _ => .yes env
  | .var x, v => .yes (env.set x v)
  | .refVar x, .data (.ref t) v => .yes (env.set x (.data (.ref t) v))
  | .deref x, .data (.ref t) v => .yes (env.set x (.data t v))
  | .num n, .data .u32 (.w32 x) => if x = BitVec.ofNat 32 n then .yes env else .no
  | .pair p q, .pair a b =>
    match matchPat W env p a with
    | .yes env => matchPat W env q b
    | m => m
  | .ok p, .ok v => matchPat W env p v
  | .ok _, .err _ => .no
  | .err p, .err e => matchPat W env p (.error e)
  | .err _, .ok _ => .no
  | .variant p x q, .data (.ref (.adt p' _)) v =>
    if p = p' then
      match W.oneofs p, v with
      | some vs, .choice i v =>
        match vs[i]? with
        | some (y, t) => if y = x then matchPat W env q (.data (.ref t) v) else .no
        | none => .stuck
      | some _, .none => .no
      | _, _ => .stuck
    else .stuck
  | .variantNone p, .data (.ref (.adt p' _)) v =>
    if p = p' then
      match W.oneofs p, v with
      | some _, .none => .yes env
      | some _, .choice _ _ => .no
      | _, _ => .stuck
    else .stuck
  | _, _ => .stuck

/-- Bind parameters. -/
def bindParams (W : World) (env : Env) : List Pat → List Val → Option Env
  | [], [] => some env
  | p :: ps, v :: vs =>
    match matchPat W env p v with
    | .yes env => bindParams W env ps vs
    | _ => none
  | _, _ => none

/-! ## Expressions -/

/-- A result that may be ill-typed. -/
def orStuck {α : Type} : Option α → SM σ α
  | some a => pure a
  | none => stuck

/-- A closure. -/
def closure (W : World) (env : Env) (ps : List Pat) (body : Env → SM σ Val) (args : List Val) : SM σ Val :=
  match bindParams W env ps args with
  | some env => body env
  | none => stuck

/-- The values of arguments. -/
def vals : List (Arg σ) → Option (List Val)
  | [] => some []
  | .val v :: as => (vals as).map (v :: ·)
  | .fn _ :: _ => none

/-- A method call. -/
def method (W : World) (H : Host σ) (recv : Val) (m : Meth) (tf : Option Ty) (inferred : List Ty) (args : List (Arg σ)) : SM σ Val :=
  match recv with
  | .reader => H.meth m tf inferred args
  | .writer => H.meth m tf inferred args
  | v => callMeth W v m args

/-- An operator. -/
def operator (W : World) : Op → Val → Val → Option Val
  | .add, .usize a, .usize b => some (.usize (a + b))
  | .mul, .usize a, .usize b => some (.usize (a * b))
  | .eq, a, b => (eqVal W a b).map fun r => .data .bool (.bool r)
  | .ne, a, b => (eqVal W a b).map fun r => .data .bool (.bool !r)
  | _, _, _ => none

mutual
/-- The value of an expression. -/
def evalExpr (W : World) (H : Host σ) (env : Env) : Expr → SM σ Val
  | .var x => orStuck (env x)
  | .num n => pure (.usize n)
  | .typed n t =>
    match t with
    | .i32 | .u32 => pure (.data t (.w32 (BitVec.ofNat 32 n)))
    | .i64 | .u64 => pure (.data t (.w64 (BitVec.ofNat 64 n)))
    | .f32 => if n = 0 then pure (.data t (.w32 0)) else stuck
    | .f64 => if n = 0 then pure (.data t (.w64 0)) else stuck
    | _ => stuck
  | .false_ => pure (.data .bool (.bool false))
  | .emptyStr => pure (.data (.ref .str) (.bytes []))
  | .emptyBytes => pure (.data (.ref .slice) (.bytes []))
  | .unit => pure .unit
  | .verbatim t s => pure (.data t (W.const t s))
  | .none_ t => pure (.data (.option t) .none)
  | .variantNone p => if (W.oneofs p).isSome then pure (.data (.adt p false) .none) else stuck
  | .paren e => evalExpr W H env e
  | .ref e => do
    let v ← evalExpr W H env e
    orStuck (mkRef v)
  | .deref e => do
    let v ← evalExpr W H env e
    orStuck (deref v)
  | .not e => do
    let v ← evalExpr W H env e
    let b ← expectBool v
    pure (.data .bool (.bool !b))
  | .cast e t => do
    let v ← evalExpr W H env e
    orStuck (cast W t v)
  | .bin op _ a b => do
    let v ← evalExpr W H env a
    let w ← evalExpr W H env b
    orStuck (operator W op v w)
  | .field e f => do
    let v ← evalExpr W H env e
    orStuck (getField W f v)
  | .mcall e m tf inferred as => do
    let v ← evalExpr W H env e
    let args ← evalArgs W H env as
    method W H v m tf inferred args
  | .call f inferred as => do
    let args ← evalArgs W H env as
    let vs ← orStuck (vals args)
    callFn W f inferred vs
  | .try_ e => do
    let v ← evalExpr W H env e
    unwrap v
  | .ite c a b => do
    let v ← evalExpr W H env c
    let t ← expectBool v
    if t then evalExpr W H env a else evalExpr W H env b
  | .match_ e as => do
    let v ← evalExpr W H env e
    evalArms W H env v as
  | .closure _ _ => stuck
  | .fnName _ => stuck
/-- The values of arguments, and the functions. -/
def evalArgs (W : World) (H : Host σ) (env : Env) : Exprs → SM σ (List (Arg σ))
  | .nil => pure []
  | .cons e es => do
    let a ← evalArg W H env e
    let as ← evalArgs W H env es
    pure (a :: as)
/-- An argument. -/
def evalArg (W : World) (H : Host σ) (env : Env) : Expr → SM σ (Arg σ)
  | .closure ps b => pure (.fn (closure W env ps fun env => evalExpr W H env b))
  | .ref (.closure ps b) => pure (.fn (closure W env ps fun env => evalExpr W H env b))
  | .fnName f => pure (.fn (callFn W f []))
  | e => do
    let v ← evalExpr W H env e
    pure (.val v)
/-- The first arm that matches. -/
def evalArms (W : World) (H : Host σ) (env : Env) (v : Val) : Arms → SM σ Val
  | .nil => stuck
  | .cons p e as =>
    match matchPat W env p v with
    | .yes env => evalExpr W H env e
    | .no => evalArms W H env v as
    | .stuck => stuck
end

/-! ## Statements -/

/-- Change a field of a local variable: `g` gets the field's type and value. -/
def updateField (W : World) (env : Env) (x : Var) (f : Str) (g : Ty → RVal → Option RVal) : SM σ Env :=
  match env x with
  | some (.data (.adt p l) (.struct slots)) =>
    match W.field p f with
    | some (j, t) =>
      match slots[j]? with
      | some old => do
        let new ← orStuck (g t old)
        pure (env.set x (.data (.adt p l) (.struct (slots.set j new))))
      | none => stuck
    | none => stuck
  | _ => stuck

/-- Statements on one line. -/
def evalSimple (W : World) (H : Host σ) (env : Env) : Simple → SM σ Env
  | .expr e => do
    let _ ← evalExpr W H env e
    pure env
  | .assign x f e => do
    let v ← evalExpr W H env e
    match v with
    | .data t v => updateField W env x f fun t' _ => if t' = t then some v else none
    | _ => stuck
  | .push x f e => do
    let v ← evalExpr W H env e
    match v with
    | .data t v => updateField W env x f fun t' old =>
        match t', old with
        | .vec t', .vec l => if t' = t then some (.vec (l ++ [v])) else none
        | _, _ => none
    | _ => stuck
  | .returnErr e => do
    let v ← evalExpr W H env e
    match v with
    | .error e => SM.throw e
    | _ => stuck

/-- Bodies of arms. -/
def evalArm (W : World) (H : Host σ) (env : Env) : ArmBody → SM σ Env
  | .simple s => evalSimple W H env s
  | .block e => do
    let _ ← evalExpr W H env e
    pure env
  | .value e => do
    let _ ← evalExpr W H env e
    pure env
  | .empty => pure env
  | .insert e x f => do
    let v ← evalExpr W H env e
    match v with
    | .pair (.data tk k) (.data tv v) => updateField W env x f fun t' old =>
        match t', old with
        | .kvmap tk' tv', .map l => if tk' = tk ∧ tv' = tv then some (.map (insertKV k v l)) else none
        | _, _ => none
    | _ => stuck

/-- The first arm that matches. -/
def evalStmtArms (W : World) (H : Host σ) (env : Env) (v : Val) : List (Pat × ArmBody) → SM σ Env
  | [] => stuck
  | (p, b) :: as =>
    match matchPat W env p v with
    | .yes env => evalArm W H env b
    | .no => evalStmtArms W H env v as
    | .stuck => stuck

/-- What `for` goes through. -/
def elements : Val → Option (List Val)
  | .data (.ref (.vec t)) (.vec l) => some (l.map (.data (.ref t)))
  | .iter l => some l
  | _ => none

/-- `for`. -/
def forEach (body : Val → SM σ Unit) : List Val → SM σ Unit
  | [] => pure ()
  | v :: vs => do
    body v
    forEach body vs

/-- `while`, at most `fuel` tests of the condition. -/
def whileLoop (cond : Env → SM σ Bool) (body : Env → SM σ Env) : (fuel : Nat) → Env → SM σ Env
  | 0, _ => SM.lift .timeout
  | fuel + 1, env => do
    let c ← cond env
    if c then do
      let env ← body env
      whileLoop cond body fuel env
    else pure env

/-- Only the outer variables survive a block: here, `msg`. -/
def Env.leave (outer inner : Env) : Env := fun x => if x = .msg then inner x else outer x

/-- Statements. -/
def evalStmt (W : World) (H : Host σ) (env : Env) : Stmt → SM σ Env
  | .letMut x e => do
    let v ← evalExpr W H env e
    pure (env.set x v)
  | .expr e => do
    let _ ← evalExpr W H env e
    pure env
  | .ifThen c e => do
    let v ← evalExpr W H env c
    let b ← expectBool v
    if b then do
      let _ ← evalExpr W H env e
      pure env
    else pure env
  | .for_ p e b => do
    let v ← evalExpr W H env e
    let l ← orStuck (elements v)
    forEach (fun v => do
      let _ ← closure W env [p] (fun env => evalExpr W H env b) [v]
      pure ()) l
    pure env
  | .match_ e as => do
    let v ← evalExpr W H env e
    let env' ← evalStmtArms W H env v as
    pure (env.leave env')
  | .whileMatch c e as =>
    whileLoop (fun env => do
        let v ← evalExpr W H env c
        expectBool v)
      (fun env => do
        let v ← evalExpr W H env e
        let env' ← evalStmtArms W H env v as
        pure (env.leave env'))
      W.fuel env

/-- Statements, one after the other. -/
def evalStmts (W : World) (H : Host σ) (env : Env) : List Stmt → SM σ Env
  | [] => pure env
  | s :: ss => do
    let env ← evalStmt W H env s
    evalStmts W H env ss

/-- The body of a function. -/
def evalBody (W : World) (H : Host σ) (env : Env) (b : Body) : SM σ Val := do
  let env ← evalStmts W H env b.stmts
  evalExpr W H env b.value

end

/-! ## Programs -/

/-- A struct and its functions. `default`: the fields in `impl Default`, `none` when it is derived. `size`, `write`: `none` when the
trait's own definitions apply (message.rs 19-27: size 0, write nothing). -/
structure StructDef where
  fields : List (Str × Ty)
  default : Option (List (Str × Expr))
  size : Option Body
  write : Option Body
  read : Body

/-- A program: its types by path. -/
structure Prog where
  structs : Path → Option StructDef
  oneofs : Path → Option (List (Str × Ty))
  enums : Path → Option (List (BitVec 32))
  const : Ty → Str → RVal

/-- What the functions of `self` can refer to. -/
def Prog.world (P : Prog) (T : Target) (dflt : Path → RVal) (fuel : Nat) (read : Path → Bytes → RM RVal)
    (write : Path → MessageWrite RVal) (self : Path) : World :=
  ⟨T, fuel, fun p => (P.structs p).map fun s => s.fields.map fun f => (f.1, f.2.erase),
    fun p => (P.oneofs p).map fun vs => vs.map fun f => (f.1, f.2.erase), P.enums, dflt, read, write, P.const, self⟩

/-- Locals of `get_size` and `write_message`. -/
def selfEnv (p : Path) (v : RVal) : Env := fun x =>
  match x with
  | .self => some (.data (.ref (.adt p false)) v)
  | .w => some .writer
  | _ => none

/-- Locals of `from_reader`. -/
def readEnv (bytes : Bytes) : Env := fun x =>
  match x with
  | .r => some .reader
  | .bytes => some (.input bytes)
  | _ => none

/-- A `get_size` gives a number (0 stands for ill-typed code). -/
def asNat (o : Out Val × Unit) : Nat :=
  match o.1 with
  | .ok (.usize n) => n
  | _ => 0

/-- The `MessageWrite` of the structs of a program. `depth` bounds the nesting of calls. -/
def Prog.writeImpl (P : Prog) (T : Target) (dflt : Path → RVal) : (depth : Nat) → Path → MessageWrite RVal
  | 0, _ => ⟨fun _ => 0, fun _ _ => SM.lift .timeout⟩
  | n + 1, p =>
    let W := P.world T dflt 0 (fun _ _ => stuck) (P.writeImpl T dflt n) p
    match P.structs p with
    | none => ⟨fun _ => 0, fun _ _ => stuck⟩
    | some s =>
      { get_size := fun v =>
          match s.size with
          | none => 0
          | some b => asNat (evalBody W noHost (selfEnv p v) b ())
        write_message := fun v σ _ =>
          match s.write with
          | none => pure ()
          | some b => do
            let r ← evalBody W (writerHost W) (selfEnv p v) b
            let r ← unwrap r
            expectUnit (σ := σ) r }

/-- The `MessageRead` of the structs of a program. `fuel` bounds the nesting of calls and the iterations of loops. -/
def Prog.fromReader (P : Prog) (T : Target) (dflt : Path → RVal) : (fuel : Nat) → Path → Bytes → RM RVal
  | 0, _, _ => SM.lift .timeout
  | n + 1, p, bytes =>
    let W := P.world T dflt (n + 1) (P.fromReader T dflt n) (P.writeImpl T dflt n) p
    match P.structs p with
    | none => stuck
    | some s => do
      let r ← evalBody W (readerHost W) (readEnv bytes) s.read
      let r ← unwrap r
      expect (.adt p false) r

/-- The fields of a struct in `default()`. -/
def Prog.defaultFields (P : Prog) (T : Target) (dflt : Path → RVal) (p : Path) (s : StructDef) : Option (List RVal) :=
  let W := P.world T dflt 0 (fun _ _ => stuck) (fun _ => ⟨fun _ => 0, fun _ _ => stuck⟩) p
  match s.default with
  | none => some (s.fields.map fun f => tyDefault W f.2.erase)
  | some es =>
    if es.map (·.1) = s.fields.map (·.1) then
      (es.zip s.fields).mapM fun x =>
        match (evalExpr W noHost (fun _ => none) x.1.2 ()).1 with
        | .ok (.data t v) => if t = x.2.2.erase then some v else none
        | _ => none
    else none

/-- `dflt` is the `Default` of the program's structs; the default of an enum is its first variant. -/
structure Prog.IsDefault (P : Prog) (T : Target) (dflt : Path → RVal) : Prop where
  structs : ∀ p s, P.structs p = some s → ∃ l, P.defaultFields T dflt p s = some l ∧ dflt p = .struct l
  enums : ∀ p nums, P.enums p = some nums → dflt p = .w32 (nums.headD 0)
  oneofs : ∀ p vs, P.oneofs p = some vs → dflt p = .none

end QP.Rust
