import Verif.Model.PackedFixed
import Verif.Model.Utf8
/-!
# `quick-protobuf/src/reader.rs`: `BytesReader`, `Reader`, `deserialize_from_slice`

Every function takes the target `T` only when `usize` arithmetic that may overflow is involved.
A Rust slice never has more than `isize::MAX` bytes, so `start += 1` right after a successful
`bytes.get(start)` cannot overflow and is modelled by `+ 1`.
-/

namespace QP

/-- reader.rs 91-95, `struct BytesReader { start: usize, end: usize }`. -/
structure BytesReader where
  start : Nat
  fin : Nat
deriving DecidableEq, Repr

/-- A `BytesReader` method. -/
abbrev RM := SM BytesReader

namespace BytesReader

/-- reader.rs 99-104, `BytesReader::from_bytes`. -/
def from_bytes (bytes : Bytes) : BytesReader := ⟨0, bytes.length⟩

/-- reader.rs 114-118, `read_u8`: note that it tests the end of the *buffer*, not `self.end`. -/
def read_u8 (bytes : Bytes) : RM Byte := do
  let r ← SM.get
  let b ← SM.okOr bytes[r.start]? .UnexpectedEndOfBuffer
  SM.set { r with start := r.start + 1 }
  pure b

/-- `b & 0x80 == 0`. -/
def isLast (b : Byte) : Prop := b &&& 0x80#8 = 0#8

instance (b : Byte) : Decidable (isLast b) := inferInstanceAs (Decidable (_ = _))

/-- `((b & 0x7f) as u32) << k`. -/
def group32 (b : Byte) (k : Nat) : BitVec 32 := (b &&& 0x7f#8).setWidth 32 <<< k

/-- reader.rs 196-200, `for _ in 0..5 { if self.read_u8(bytes)? & 0x80 == 0 { return Ok(r); } }`,
then (204) `Err(Error::Varint)`. -/
def discardExtra (bytes : Bytes) (r : BitVec 32) : Nat → RM (BitVec 32)
  | 0 => SM.throw .Varint
  | n + 1 => do
    let b ← read_u8 bytes
    if isLast b then pure r else discardExtra bytes r n

/-- reader.rs 122-205, `read_varint32`. -/
def read_varint32 (bytes : Bytes) : RM (BitVec 32) := do
  let b ← read_u8 bytes
  if isLast b then pure (b.setWidth 32) else
  let r := (b &&& 0x7f#8).setWidth 32
  let b ← read_u8 bytes
  let r := r ||| group32 b 7
  if isLast b then pure r else
  let b ← read_u8 bytes
  let r := r ||| group32 b 14
  if isLast b then pure r else
  let b ← read_u8 bytes
  let r := r ||| group32 b 21
  if isLast b then pure r else
  let b ← read_u8 bytes
  let r := r ||| ((b &&& 0xf#8).setWidth 32 <<< 28)
  if isLast b then pure r else
  discardExtra bytes r 5

/-- `r0 as u64 | (r1 as u64) << 28`. -/
def join01 (r0 r1 : BitVec 32) : BitVec 64 := r0.setWidth 64 ||| (r1.setWidth 64 <<< 28)

/-- `(r0 as u64 | (r1 as u64) << 28) | (r2 as u64) << 56`. -/
def join012 (r0 r1 r2 : BitVec 32) : BitVec 64 := join01 r0 r1 ||| (r2.setWidth 64 <<< 56)

/-- reader.rs 210-290, `read_varint64`. -/
def read_varint64 (bytes : Bytes) : RM (BitVec 64) := do
  -- part0
  let b ← read_u8 bytes
  if isLast b then pure (b.setWidth 64) else
  let r0 := (b &&& 0x7f#8).setWidth 32
  let b ← read_u8 bytes
  let r0 := r0 ||| group32 b 7
  if isLast b then pure (r0.setWidth 64) else
  let b ← read_u8 bytes
  let r0 := r0 ||| group32 b 14
  if isLast b then pure (r0.setWidth 64) else
  let b ← read_u8 bytes
  let r0 := r0 ||| group32 b 21
  if isLast b then pure (r0.setWidth 64) else
  -- part1
  let b ← read_u8 bytes
  let r1 := (b &&& 0x7f#8).setWidth 32
  if isLast b then pure (join01 r0 r1) else
  let b ← read_u8 bytes
  let r1 := r1 ||| group32 b 7
  if isLast b then pure (join01 r0 r1) else
  let b ← read_u8 bytes
  let r1 := r1 ||| group32 b 14
  if isLast b then pure (join01 r0 r1) else
  let b ← read_u8 bytes
  let r1 := r1 ||| group32 b 21
  if isLast b then pure (join01 r0 r1) else
  -- part2
  let b ← read_u8 bytes
  let r2 := (b &&& 0x7f#8).setWidth 32
  if isLast b then pure (join012 r0 r1 r2) else
  let b ← read_u8 bytes
  let r2 := r2 ||| (b.setWidth 32 <<< 7)
  if isLast b then pure (join012 r0 r1 r2) else
  SM.throw .Varint

/-- reader.rs 108-110, `next_tag`. -/
def next_tag (bytes : Bytes) : RM (BitVec 32) := read_varint32 bytes
/-- reader.rs 295-297 (`i as i32` keeps the bits). -/
def read_int32 (bytes : Bytes) : RM (BitVec 32) := read_varint32 bytes
/-- reader.rs 301-303. -/
def read_int64 (bytes : Bytes) : RM (BitVec 64) := read_varint64 bytes
/-- reader.rs 307-309. -/
def read_uint32 (bytes : Bytes) : RM (BitVec 32) := read_varint32 bytes
/-- reader.rs 313-315. -/
def read_uint64 (bytes : Bytes) : RM (BitVec 64) := read_varint64 bytes

/-- reader.rs 319-323, `read_sint32`: `((n >> 1) as i32) ^ (-((n & 1) as i32))`. -/
def read_sint32 (bytes : Bytes) : RM (BitVec 32) := do
  let n ← read_varint32 bytes
  pure ((n >>> 1) ^^^ (-(n &&& 1#32)))

/-- reader.rs 327-331, `read_sint64`. -/
def read_sint64 (bytes : Bytes) : RM (BitVec 64) := do
  let n ← read_varint64 bytes
  pure ((n >>> 1) ^^^ (-(n &&& 1#64)))

/-- reader.rs 335-343, `read_fixed`. -/
def read_fixed {M : Type} (T : Target) (bytes : Bytes) (len : Nat) (read : Bytes → M) : RM M := do
  let r ← SM.get
  let stop ← SM.lift (T.usizeAdd r.start len)
  let chunk ← SM.okOr (getRange bytes r.start stop) .UnexpectedEndOfBuffer
  let v := read chunk
  SM.set { r with start := r.start + len }
  pure v

/-- `byteorder`'s `LE::read_u32 / read_i32 / read_f32` of four bytes. -/
def leRead32 (bs : Bytes) : BitVec 32 :=
  (bs.getD 0 0).setWidth 32 ||| ((bs.getD 1 0).setWidth 32 <<< 8) |||
  ((bs.getD 2 0).setWidth 32 <<< 16) ||| ((bs.getD 3 0).setWidth 32 <<< 24)

/-- `byteorder`'s `LE::read_u64 / read_i64 / read_f64` of eight bytes. -/
def leRead64 (bs : Bytes) : BitVec 64 :=
  (bs.getD 0 0).setWidth 64 ||| ((bs.getD 1 0).setWidth 64 <<< 8) |||
  ((bs.getD 2 0).setWidth 64 <<< 16) ||| ((bs.getD 3 0).setWidth 64 <<< 24) |||
  ((bs.getD 4 0).setWidth 64 <<< 32) ||| ((bs.getD 5 0).setWidth 64 <<< 40) |||
  ((bs.getD 6 0).setWidth 64 <<< 48) ||| ((bs.getD 7 0).setWidth 64 <<< 56)

/-- reader.rs 347-349. -/
def read_fixed64 (T : Target) (bytes : Bytes) : RM (BitVec 64) := read_fixed T bytes 8 leRead64
/-- reader.rs 353-355. -/
def read_fixed32 (T : Target) (bytes : Bytes) : RM (BitVec 32) := read_fixed T bytes 4 leRead32
/-- reader.rs 359-361. -/
def read_sfixed64 (T : Target) (bytes : Bytes) : RM (BitVec 64) := read_fixed T bytes 8 leRead64
/-- reader.rs 365-367. -/
def read_sfixed32 (T : Target) (bytes : Bytes) : RM (BitVec 32) := read_fixed T bytes 4 leRead32
/-- reader.rs 371-373 (bit pattern of the `f32`). -/
def read_float (T : Target) (bytes : Bytes) : RM (BitVec 32) := read_fixed T bytes 4 leRead32
/-- reader.rs 377-379 (bit pattern of the `f64`). -/
def read_double (T : Target) (bytes : Bytes) : RM (BitVec 64) := read_fixed T bytes 8 leRead64

/-- reader.rs 383-385. -/
def read_bool (bytes : Bytes) : RM Bool := do
  let i ← read_varint32 bytes
  pure (i != 0#32)

/-- reader.rs 389-391, `read_enum::<E: From<i32>>`. -/
def read_enum {E : Type} (fromI32 : BitVec 32 → E) (bytes : Bytes) : RM E := do
  let e ← read_int32 bytes
  pure (fromI32 e)

/-- reader.rs 405-415, `read_len`. On `Err` the `?` returns before `self.end` is restored. -/
def read_len {M : Type} (T : Target) (read : RM M) (len : Nat) : RM M := do
  let r ← SM.get
  let cur_end := r.fin
  let fin ← SM.lift (T.usizeAdd r.start len)
  SM.set { r with fin := fin }
  let v ← read
  let r ← SM.get
  SM.set ⟨r.fin, cur_end⟩
  pure v

/-- reader.rs 395-401, `read_len_varint`; `u32 as usize` (`usize` has at least 32 bits). -/
def read_len_varint {M : Type} (T : Target) (bytes : Bytes) (read : RM M) : RM M := do
  let len ← read_varint32 bytes
  read_len T read len.toNat

/-- The closure `b.get(r.start..r.end).ok_or(UnexpectedEndOfBuffer)` (reader.rs 421 and 429). -/
def getSelf (bytes : Bytes) : RM Bytes := do
  let r ← SM.get
  SM.okOr (getRange bytes r.start r.fin) .UnexpectedEndOfBuffer

/-- reader.rs 419-423, `read_bytes`. -/
def read_bytes (T : Target) (bytes : Bytes) : RM Bytes := read_len_varint T bytes (getSelf bytes)

/-- reader.rs 427-433, `read_string`; a `&str` is its bytes. -/
def read_string (T : Target) (bytes : Bytes) : RM Bytes :=
  read_len_varint T bytes (do
    let x ← getSelf bytes
    if utf8Ok x then pure x else SM.throw .Utf8)

/-- reader.rs 575-577, `is_eof`. -/
def is_eof (r : BytesReader) : Bool := r.start == r.fin

/-- reader.rs 569-571, `len` (a `usize` subtraction). -/
def len (T : Target) : RM Nat := do
  let r ← SM.get
  SM.lift (T.usizeSub r.fin r.start)

/-- reader.rs 580-582, `read_to_end`. -/
def read_to_end : RM Unit := do
  let r ← SM.get
  SM.set { r with start := r.fin }

/-- `while !r.is_eof() { acc = step(acc)?; } Ok(acc)`. `fuel` bounds the number of tests of the
loop condition; running out is `timeout`. -/
def whileNotEof {A : Type} (step : A → RM A) : (fuel : Nat) → A → RM A
  | 0, _ => SM.lift .timeout
  | fuel + 1, acc => do
    let r ← SM.get
    if r.is_eof then pure acc
    else do
      let acc ← step acc
      whileNotEof step fuel acc

/-- reader.rs 440-451, `read_packed`. `fuel` bounds the loop. -/
def read_packed {M : Type} (T : Target) (fuel : Nat) (bytes : Bytes) (read : RM M) : RM (List M) :=
  read_len_varint T bytes (do
    let v ← whileNotEof (fun (acc : List M) => do let m ← read; pure (m :: acc)) fuel []
    pure v.reverse)

/-- reader.rs 458-479, `read_packed_fixed`. The slice expression panics when it is out of range;
`Division by size_of == 0` panics. -/
def read_packed_fixed {α : Type} (T : Target) (M : MemTy α) (bytes : Bytes) :
    RM (PackedFixed α) := do
  let len ← read_varint32 bytes
  let rem ← BytesReader.len T
  if rem < len.toNat then SM.throw .UnexpectedEndOfBuffer
  else if M.size = 0 then SM.lift .panic
  else do
    let n := len.toNat / M.size
    let r ← SM.get
    let stop ← SM.lift (T.usizeAdd r.start (n * M.size))
    let target ← (match getRange bytes r.start stop with
      | some x => pure x
      | none => SM.lift .panic)
    let start ← SM.lift (T.usizeAdd r.start len.toNat)
    SM.set { r with start := start }
    pure (.borrowed target)

/-- reader.rs 483-488, `read_message`; `M::from_reader` is a parameter. -/
def read_message {M : Type} (T : Target) (bytes : Bytes) (from_reader : RM M) : RM M :=
  read_len_varint T bytes from_reader

/-- reader.rs 495-500, `read_message_by_len`. -/
def read_message_by_len {M : Type} (T : Target) (from_reader : RM M) (len : Nat) : RM M :=
  read_len T from_reader len

/-- reader.rs 504-529, `read_map`. The default key and value are parameters. -/
def read_map {K V : Type} (T : Target) (fuel : Nat) (bytes : Bytes) (k0 : K) (v0 : V)
    (read_key : RM K) (read_val : RM V) : RM (K × V) :=
  read_len_varint T bytes
    (whileNotEof (fun (kv : K × V) => do
      let t ← read_u8 bytes
      let n := t >>> 3
      if n = 1#8 then do
        let k ← read_key
        pure (k, kv.2)
      else if n = 2#8 then do
        let v ← read_val
        pure (kv.1, v)
      else SM.throw (.Map n)) fuel (k0, v0))

/-- reader.rs 558-565, the tail of `read_unknown`. -/
def skip (T : Target) (offset : Nat) : RM Unit := do
  let r ← SM.get
  let rem ← SM.lift (T.usizeSub r.fin r.start)
  if rem < offset then SM.throw .Varint
  else do
    let start ← SM.lift (T.usizeAdd r.start offset)
    SM.set { r with start := start }

/-- reader.rs 533-566, `read_unknown`. Wire types: 0 varint, 1 fixed64, 2 length-delimited, 3/4
groups, 5 fixed32 (reader.rs 16-21). -/
def read_unknown (T : Target) (bytes : Bytes) (tag_value : BitVec 32) : RM Unit :=
  let t : Byte := (tag_value &&& 0x7#32).setWidth 8
  if t = 0#8 then do
    let _ ← read_varint64 bytes
    pure ()
  else if t = 1#8 then skip T 8
  else if t = 5#8 then skip T 4
  else if t = 2#8 then do
    let v ← read_varint64 bytes
    if v.toNat < 2 ^ T.usizeBits then skip T v.toNat else SM.throw .Varint
  else if t = 3#8 ∨ t = 4#8 then SM.throw .Deprecated
  else SM.throw (.UnknownWireType t)

end BytesReader

/-- Forget the final reader state. -/
def Out.ofRun {σ α : Type} (p : Out α × σ) : Out α := p.1

/-- reader.rs 698-701, `deserialize_from_slice`. -/
def deserialize_from_slice {M : Type} (T : Target) (from_reader : Bytes → RM M) (bytes : Bytes) :
    Out M :=
  (BytesReader.read_message T bytes (from_reader bytes) (BytesReader.from_bytes bytes)).1

/-- reader.rs 640-643, `struct Reader { buffer: Vec<u8>, inner: BytesReader }`. -/
structure Reader where
  buffer : Bytes
  inner : BytesReader
deriving DecidableEq, Repr

namespace Reader

/-- reader.rs 668-677, `Reader::from_bytes`. -/
def from_bytes (bytes : Bytes) : Reader := ⟨bytes, ⟨0, bytes.length⟩⟩

/-- reader.rs 680-685, `Reader::read`. -/
def read {M : Type} (f : Bytes → RM M) : SM Reader M := fun r =>
  let (o, i) := f r.buffer r.inner
  (o, { r with inner := i })

/-- reader.rs 647-657, `Reader::from_reader(r, capacity)`: `read_exact` of `capacity` bytes from a
source that will deliver `src` and then end. -/
def from_reader (src : Bytes) (capacity : Nat) : Out Reader :=
  if capacity ≤ src.length then .ok (from_bytes (src.take capacity)) else .err .Io

end Reader

end QP
