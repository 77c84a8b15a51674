import Verif.Model.Sizeofs
import Verif.Model.PackedFixed
/-!
# `quick-protobuf/src/writer.rs` and `MessageWrite` (`message.rs` 17-36)

A `Writer<W>` is modelled by the state of its backend `W`; a method is a program in `SM W`.
`f32`/`f64` arguments are their bit patterns.
-/

namespace QP

/-- writer.rs 352-376, `trait WriterBackend`. -/
class WriterBackend (W : Type) where
  pb_write_u8 : Byte → SM W Unit
  pb_write_u32 : BitVec 32 → SM W Unit
  pb_write_i32 : BitVec 32 → SM W Unit
  pb_write_f32 : BitVec 32 → SM W Unit
  pb_write_u64 : BitVec 64 → SM W Unit
  pb_write_i64 : BitVec 64 → SM W Unit
  pb_write_f64 : BitVec 64 → SM W Unit
  pb_write_all : Bytes → SM W Unit

open WriterBackend

/-- `byteorder`'s `LE::write_u32/i32/f32` and `WriteBytesExt::write_u32::<LE>` …: the four bytes. -/
def le32 (x : BitVec 32) : Bytes :=
  [x.setWidth 8, (x >>> 8).setWidth 8, (x >>> 16).setWidth 8, (x >>> 24).setWidth 8]

/-- `byteorder`'s little-endian 64 bit writers: the eight bytes. -/
def le64 (x : BitVec 64) : Bytes :=
  [x.setWidth 8, (x >>> 8).setWidth 8, (x >>> 16).setWidth 8, (x >>> 24).setWidth 8,
   (x >>> 32).setWidth 8, (x >>> 40).setWidth 8, (x >>> 48).setWidth 8, (x >>> 56).setWidth 8]

section Writer
variable {W : Type} [WriterBackend W]

/-- writer.rs 66-68. -/
def write_u8 (b : Byte) : SM W Unit := pb_write_u8 b

/-- writer.rs 71-77, `write_varint`. -/
def write_varint (v : BitVec 64) : SM W Unit :=
  if 0x7F#64 < v then do
    pb_write_u8 ((v.setWidth 8 &&& 0x7F#8) ||| 0x80#8)
    write_varint (v >>> 7)
  else pb_write_u8 (v.setWidth 8)
termination_by v.toNat
decreasing_by
  rename_i h
  simp only [BitVec.lt_def, BitVec.toNat_ofNat] at h
  simp only [BitVec.toNat_ushiftRight, Nat.shiftRight_eq_div_pow]
  omega

/-- writer.rs 81-83, `write_tag(tag: u32)`. -/
def write_tag (tag : BitVec 32) : SM W Unit := write_varint (tag.setWidth 64)
/-- writer.rs 87-89; `v as u64` sign-extends an `i32`. -/
def write_int32 (v : BitVec 32) : SM W Unit := write_varint (v.signExtend 64)
/-- writer.rs 93-95. -/
def write_int64 (v : BitVec 64) : SM W Unit := write_varint v
/-- writer.rs 99-101. -/
def write_uint32 (v : BitVec 32) : SM W Unit := write_varint (v.setWidth 64)
/-- writer.rs 105-107. -/
def write_uint64 (v : BitVec 64) : SM W Unit := write_varint v
/-- writer.rs 111-113; the `i32` expression is cast `as u64`, i.e. sign-extended. -/
def write_sint32 (v : BitVec 32) : SM W Unit := write_varint ((zigzagExpr32 v).signExtend 64)
/-- writer.rs 117-119. -/
def write_sint64 (v : BitVec 64) : SM W Unit := write_varint (zigzagExpr64 v)
/-- writer.rs 123-125. -/
def write_fixed64 (v : BitVec 64) : SM W Unit := pb_write_u64 v
/-- writer.rs 129-131. -/
def write_fixed32 (v : BitVec 32) : SM W Unit := pb_write_u32 v
/-- writer.rs 135-137. -/
def write_sfixed64 (v : BitVec 64) : SM W Unit := pb_write_i64 v
/-- writer.rs 141-143. -/
def write_sfixed32 (v : BitVec 32) : SM W Unit := pb_write_i32 v
/-- writer.rs 147-149. -/
def write_float (v : BitVec 32) : SM W Unit := pb_write_f32 v
/-- writer.rs 153-155. -/
def write_double (v : BitVec 64) : SM W Unit := pb_write_f64 v
/-- writer.rs 159-161; `u8::from(v)`. -/
def write_bool (v : Bool) : SM W Unit := pb_write_u8 (if v then 1 else 0)
/-- writer.rs 165-167. -/
def write_enum (v : BitVec 32) : SM W Unit := write_int32 v

/-- writer.rs 171-174, `write_bytes`; `bytes.len() as u64`. -/
def write_bytes (bs : Bytes) : SM W Unit := do
  write_varint (BitVec.ofNat 64 bs.length)
  pb_write_all bs

/-- writer.rs 178-180. A `&str` is its UTF-8 bytes. -/
def write_string (s : Bytes) : SM W Unit := write_bytes s

/-- The loop `for m in v { write(self, m)?; }` (writer.rs 194-196 and 255-257). -/
def writeEach {M : Type} (write : M → SM W Unit) : List M → SM W Unit
  | [] => pure ()
  | m :: ms => do write m; writeEach write ms

/-- writer.rs 183-198, `write_packed`. Simplification: the `usize` sum does not overflow. -/
def write_packed {M : Type} (v : List M) (write : M → SM W Unit) (size : M → Nat) : SM W Unit :=
  if v.isEmpty then pure ()
  else do
    let len := (v.map size).sum
    write_varint (BitVec.ofNat 64 len)
    writeEach write v

/-- The raw bytes viewed by `from_raw_parts(contents.as_ptr() as *const u8, ..)`. -/
def rawBytes {α : Type} (M : MemTy α) (v : List α) : Bytes := v.flatMap M.store

/-- writer.rs 205-215, `write_packed_fixed`. -/
def write_packed_fixed {α : Type} (M : MemTy α) (pf : PackedFixed α) : SM W Unit :=
  match pf with
  | .noDataYet => SM.lift .panic
  | .borrowed bytes => write_bytes bytes
  | .owned contents => write_bytes ((rawBytes M contents).take (M.size * contents.length))

/-- writer.rs 227-233, `write_with_tag`. -/
def write_with_tag (tag : BitVec 32) (write : SM W Unit) : SM W Unit := do
  write_tag tag
  write

/-- writer.rs 238-259, `write_packed_with_tag`. -/
def write_packed_with_tag {M : Type} (tag : BitVec 32) (v : List M) (write : M → SM W Unit)
    (size : M → Nat) : SM W Unit :=
  if v.isEmpty then pure ()
  else do
    write_tag tag
    let len := (v.map size).sum
    write_varint (BitVec.ofNat 64 len)
    writeEach write v

/-- writer.rs 265-276, `write_packed_fixed_with_tag`. -/
def write_packed_fixed_with_tag {α : Type} (M : MemTy α) (tag : BitVec 32) (pf : PackedFixed α) :
    SM W Unit :=
  if pf.is_empty then pure ()
  else do
    write_tag tag
    write_packed_fixed M pf

/-- writer.rs 281-302, `write_packed_fixed_size_with_tag`. `&bytes[0..len]` panics when too long;
`from_raw_parts(.., len)` beyond the vector is `ub`. Simplification: `size_of::<M>() * item_size`
does not overflow. -/
def write_packed_fixed_size_with_tag {α : Type} (M : MemTy α) (tag : BitVec 32)
    (pf : PackedFixed α) (item_size : Nat) : SM W Unit :=
  if pf.is_empty then pure ()
  else do
    write_tag tag
    let len := M.size * item_size
    match pf with
    | .noDataYet => SM.lift .panic
    | .borrowed bytes => if len ≤ bytes.length then write_bytes (bytes.take len) else SM.lift .panic
    | .owned contents =>
      if len ≤ (rawBytes M contents).length then write_bytes ((rawBytes M contents).take len)
      else SM.lift .ub

/-- writer.rs 305-323, `write_map`. -/
def write_map (size : Nat) (tag_key : BitVec 32) (write_key : SM W Unit) (tag_val : BitVec 32)
    (write_val : SM W Unit) : SM W Unit := do
  write_varint (BitVec.ofNat 64 size)
  write_tag tag_key
  write_key
  write_tag tag_val
  write_val

end Writer

/-- message.rs 17-36, `trait MessageWrite` for a type `M`: `get_size` and a `write_message` that is
generic in the backend. Not modelled here: `write_file`, which is `write_message` on a
`BufWriter<File>` (an `io::Write`). -/
structure MessageWrite (M : Type) where
  get_size : M → Nat
  write_message : M → (W : Type) → [WriterBackend W] → SM W Unit

/-- writer.rs 219-223, `Writer::write_message`. -/
def write_message {M W : Type} [WriterBackend W] (I : MessageWrite M) (m : M) : SM W Unit := do
  let len := I.get_size m
  write_varint (BitVec.ofNat 64 len)
  I.write_message m W

/-! ## Backends -/

/-- writer.rs 380-391, `struct BytesWriter { buf: &mut [u8], cursor: usize }`. -/
structure BytesWriter where
  buf : Bytes
  cursor : Nat
deriving DecidableEq, Repr

/-- writer.rs 387-389, `BytesWriter::new`. -/
def BytesWriter.new (buf : Bytes) : BytesWriter := ⟨buf, 0⟩

/-- Storing `bs` into `buf` at `pos` (`copy_from_slice`, `LE::write_*`). -/
def overwrite (buf : Bytes) (pos : Nat) (bs : Bytes) : Bytes :=
  buf.take pos ++ bs ++ buf.drop (pos + bs.length)

/-- writer.rs 393-478: every method tests `self.buf.len() - self.cursor < n`, then stores `n`
bytes at the cursor and advances it by `n`. The subtraction panics when `cursor > len` (with
overflow checks; `bytesWriter_cursor_le` shows the case does not arise). -/
def BytesWriter.put (n : Nat) (bs : Bytes) : SM BytesWriter Unit := fun w =>
  if w.buf.length < w.cursor then (.panic, w)
  else if w.buf.length - w.cursor < n then (.err .UnexpectedEndOfBuffer, w)
  else (.ok (), ⟨overwrite w.buf w.cursor bs, w.cursor + n⟩)

/-- writer.rs 392-479, `impl WriterBackend for BytesWriter`. -/
instance : WriterBackend BytesWriter where
  pb_write_u8 x := BytesWriter.put 1 [x]
  pb_write_u32 x := BytesWriter.put 4 (le32 x)
  pb_write_i32 x := BytesWriter.put 4 (le32 x)
  pb_write_f32 x := BytesWriter.put 4 (le32 x)
  pb_write_u64 x := BytesWriter.put 8 (le64 x)
  pb_write_i64 x := BytesWriter.put 8 (le64 x)
  pb_write_f64 x := BytesWriter.put 8 (le64 x)
  pb_write_all bs := BytesWriter.put bs.length bs

/-- `impl io::Write for Vec<u8>` (std): appends everything. -/
structure VecWriter where
  vec : Bytes
deriving DecidableEq, Repr

/-- `Vec::<u8>::write_all`. -/
def VecWriter.write_all (bs : Bytes) : SM VecWriter Unit := fun v => (.ok (), ⟨v.vec ++ bs⟩)

/-- One answer of an `io::Write::write(buf)` call: accept up to `n` bytes (returning how many), be
interrupted, or fail. -/
inductive Resp where
  | accept (n : Nat)
  | interrupted
  | fail
deriving DecidableEq, Repr

/-- An arbitrary `std::io::Write` sink: an infinite schedule of answers (so: any device, any crash
point), what it has received so far, and how many calls it has answered.
`fuel` bounds the retries of one `write_all` (which loops forever on endless interruptions). -/
structure Device where
  sched : Nat → Resp
  fuel : Nat
  calls : Nat
  received : Bytes

/-- `std::io::Write::write_all` (std's default implementation): call `write` until the buffer is
empty; `Ok(0)` is an error; `Interrupted` is retried. An accepted count is at most `buf.len()`,
as `io::Write` demands. -/
def Device.writeAllLoop : (fuel : Nat) → Bytes → SM Device Unit
  | 0, _ => fun d => (.timeout, d)
  | fuel + 1, bs => fun d =>
    if bs.isEmpty then (.ok (), d)
    else
      let d' := { d with calls := d.calls + 1 }
      match d.sched d.calls with
      | .accept n =>
        let k := min n bs.length
        let d' := { d' with received := d.received ++ bs.take k }
        if k = 0 then (.err .Io, d') else Device.writeAllLoop fuel (bs.drop k) d'
      | .interrupted => Device.writeAllLoop fuel bs d'
      | .fail => (.err .Io, d')

/-- `io::Write::write_all` on a `Device`. -/
def Device.write_all (bs : Bytes) : SM Device Unit := fun d => Device.writeAllLoop d.fuel bs d

/-- writer.rs 482-521, `impl<W: io::Write> WriterBackend for W`, at `W = Vec<u8>`;
`byteorder::WriteBytesExt::write_u32::<LE>(x)` is `write_all(&le_bytes(x))`. -/
instance : WriterBackend VecWriter where
  pb_write_u8 x := VecWriter.write_all [x]
  pb_write_u32 x := VecWriter.write_all (le32 x)
  pb_write_i32 x := VecWriter.write_all (le32 x)
  pb_write_f32 x := VecWriter.write_all (le32 x)
  pb_write_u64 x := VecWriter.write_all (le64 x)
  pb_write_i64 x := VecWriter.write_all (le64 x)
  pb_write_f64 x := VecWriter.write_all (le64 x)
  pb_write_all bs := VecWriter.write_all bs

/-- writer.rs 482-521, the same impl at an arbitrary sink. -/
instance : WriterBackend Device where
  pb_write_u8 x := Device.write_all [x]
  pb_write_u32 x := Device.write_all (le32 x)
  pb_write_i32 x := Device.write_all (le32 x)
  pb_write_f32 x := Device.write_all (le32 x)
  pb_write_u64 x := Device.write_all (le64 x)
  pb_write_i64 x := Device.write_all (le64 x)
  pb_write_f64 x := Device.write_all (le64 x)
  pb_write_all bs := Device.write_all bs

/-! ## Free functions -/

/-- writer.rs 327-335, `serialize_into_vec`. -/
def serialize_into_vec {M : Type} (I : MessageWrite M) (m : M) : Out Bytes :=
  match write_message I m (W := VecWriter) ⟨[]⟩ with
  | (.ok _, v) => .ok v.vec
  | (.err e, _) => .err e
  | (.panic, _) => .panic
  | (.ub, _) => .ub
  | (.timeout, _) => .timeout

/-- writer.rs 338-349, `serialize_into_slice`: the result and the new contents of `out`. -/
def serialize_into_slice {M : Type} (I : MessageWrite M) (m : M) (out : Bytes) :
    Out Unit × Bytes :=
  let len := I.get_size m
  if out.length < sizeof_len len then (.err .OutputBufferTooSmall, out)
  else
    match write_message I m (BytesWriter.new out) with
    | (.ok _, w) => (.ok (), w.buf)
    | (.err e, w) => (.err e, w.buf)
    | (.panic, w) => (.panic, w.buf)
    | (.ub, w) => (.ub, w.buf)
    | (.timeout, w) => (.timeout, w.buf)

end QP
