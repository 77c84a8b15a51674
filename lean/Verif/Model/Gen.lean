import Verif.Model.Pbrs.Types
import Verif.Model.Reader
import Verif.Model.Writer
/-!
# The code that pb-rs generates for a message

`pb-rs` prints Rust code. This file models what that code *does*: for a descriptor `D` and options
`cfg` it gives the `from_reader`, `get_size` and `write_message` of every message, by interpreting
the decisions taken in `write_match_tag`, `write_get_size` and `write_write` (types.rs).

Values: a message is the list of its fields and oneofs in declaration order.
-/

namespace QP.Gen
open QP.Pbrs BytesReader

/-- A value of generated Rust code.
* `w32`/`w64`: `i32`, `u32`, `f32` (bit pattern), enums (their number) / `i64`, `u64`, `f64`;
* `bytes`: `Cow<[u8]>`, `Vec<u8>`, `Cow<str>`, `String` (UTF-8 bytes);
* `none`/`some`: `Option`, and `OneOf::None`; a `Box` is its contents;
* `vec`: `Vec`; `pf32`/`pf64`: `PackedFixed` of a four/eight byte type;
* `map`: `HashMap`, its entries in iteration order;
* `choice i v`: variant number `i` (among the generated ones) of a `OneOf` enum;
* `struct`: a message. -/
inductive RVal where
  | w32 (x : BitVec 32)
  | w64 (x : BitVec 64)
  | bool (b : Bool)
  | bytes (b : Bytes)
  | none
  | some (v : RVal)
  | vec (l : List RVal)
  | pf32 (p : PackedFixed (BitVec (8 * 4)))
  | pf64 (p : PackedFixed (BitVec (8 * 8)))
  | map (l : List (RVal × RVal))
  | choice (i : Nat) (v : RVal)
  | struct (slots : List RVal)

/-- The world in which generated code runs: target, descriptor, options; `dflt m` is the value of
`M::default()` (see `IsDefault`), and `const t s` the value of a custom default written `s` in the
`.proto` file for a field of type `t`. -/
structure Ctx where
  T : Target
  D : FileDescriptor
  cfg : Config
  dflt : MessageIndex → RVal
  const : FieldType → Str → RVal

/-- A member of a generated struct: a field, or a oneof with its generated variants. -/
inductive Member where
  | field (f : Field)
  | oneof (fs : List Field)

/-- types.rs 1613-1618, `write_definition`: the members of the struct, in order.
Fields that are not `visible` are left out (types.rs 843-849, 2303-2309). -/
def members (cfg : Config) (m : Message) : List Member :=
  (m.fields.filter (·.visible cfg)).map .field ++
    m.oneofs.map (fun o => .oneof (o.fields.filter (·.visible cfg)))

/-- The numbers of an enum's variants, as `i32`. -/
def Ctx.enumNums (C : Ctx) (e : EnumIndex) : List (BitVec 32) :=
  match C.D.getEnum e with
  | Option.some en => en.fields.map (fun p => BitVec.ofInt 32 p.2)
  | Option.none => []

/-- types.rs 2186-2199, the generated `impl From<i32>`: the variant with that number, else
`Self::default()`, which is the first variant (2175-2184). A variant is its number. -/
def enumFrom (nums : List (BitVec 32)) (i : BitVec 32) : BitVec 32 :=
  if i ∈ nums then i else nums.headD 0

/-- `T::default()` for the Rust type of a field type (types.rs 315-344 give the same values as
`Default` does). -/
def typDefault (C : Ctx) : FieldType → RVal
  | .int32 | .uint32 | .sint32 | .fixed32 | .sfixed32 | .float => .w32 0
  | .int64 | .uint64 | .sint64 | .fixed64 | .sfixed64 | .double => .w64 0
  | .bool => .bool false
  | .enum e => .w32 ((C.enumNums e).headD 0)
  | .stringCow | .bytesCow | .string_ | .bytes_ => .bytes []
  | .message m => C.dflt m
  | .map _ _ => .map []
  | .messageOrEnum _ => .none

/-- `PartialEq` on the scalar types, used to compare with the default. -/
def scalarEq (t : FieldType) (a b : RVal) : Bool :=
  match a, b with
  | .w32 x, .w32 y => if t = .float then f32Eq x y else x == y
  | .w64 x, .w64 y => if t = .double then f64Eq x y else x == y
  | .bool x, .bool y => x == y
  | .bytes x, .bytes y => x == y
  | _, _ => false

/-- `PartialEq`/`Hash` on `HashMap` keys (integers, `bool`, strings). -/
def keyEq (a b : RVal) : Bool := scalarEq .int32 a b

/-- `HashMap::insert`: replace the value of an equal key, or add a new entry. -/
def insertKV (k v : RVal) : List (RVal × RVal) → List (RVal × RVal)
  | [] => [(k, v)]
  | (k', v') :: l => if keyEq k' k then (k', v) :: l else (k', v') :: insertKV k v l

/-! ## Defaults -/

/-- types.rs 723-771, `get_field_default`, for a singular, not optional field. -/
def fieldDefault (C : Ctx) (f : Field) : RVal :=
  match f.default with
  | Option.some s => C.const f.typ s
  | Option.none => typDefault C f.typ

/-- Is the field a `PackedFixed`? (types.rs 825-829; `read_packed_fixed` and
`write_packed_fixed_with_tag` are generated under the same condition without `dont_use_cow`.) -/
def isPackedFixed (f : Field) : Bool := f.isPacked && f.typ.isFixedSize

/-- The initial value of a field in `Self::default()`. `custom`: the message has a generated
`impl Default` (types.rs 1628-1662), otherwise `Default` is derived (types.rs 1586-1588). -/
def slotDefault (C : Ctx) (custom : Bool) : Member → RVal
  | .oneof _ => .none
  | .field f =>
    if f.boxed || (f.frequency.generated == .singular && f.frequency.isOptional) then .none
    else match f.frequency.generated with
      | .singular => if custom then fieldDefault C f else typDefault C f.typ
      | .arrayLike =>
        if isPackedFixed f then
          let p {α : Type} : PackedFixed α := if custom then .owned [] else .noDataYet
          if f.typ.wireTypeNumNonPacked = 1 then .pf64 p else .pf32 p
        else .vec []
      | .map => .map []

/-- `C.dflt` is the generated `Default`. -/
def IsDefault (C : Ctx) : Prop :=
  ∀ idx m, C.D.getMessage idx = Option.some m →
    C.dflt idx = .struct ((members C.cfg m).map
      (slotDefault C (m.mustGenerateImplDefault C.D C.cfg)))

/-! ## Reading -/

/-- types.rs 413-446, `read_fn`: read one value of a type. `rd m` is the `from_reader` of message
`m`. Reading a map this way is an error of the generator, an unresolved type panics. -/
def readTyp (C : Ctx) (rd : MessageIndex → Bytes → RM RVal) (t : FieldType) (bytes : Bytes) :
    RM RVal :=
  match t with
  | .int32 => do let x ← read_int32 bytes; pure (.w32 x)
  | .int64 => do let x ← read_int64 bytes; pure (.w64 x)
  | .uint32 => do let x ← read_uint32 bytes; pure (.w32 x)
  | .uint64 => do let x ← read_uint64 bytes; pure (.w64 x)
  | .sint32 => do let x ← read_sint32 bytes; pure (.w32 x)
  | .sint64 => do let x ← read_sint64 bytes; pure (.w64 x)
  | .bool => do let x ← read_bool bytes; pure (.bool x)
  | .enum e => do let x ← read_enum (enumFrom (C.enumNums e)) bytes; pure (.w32 x)
  | .fixed64 => do let x ← read_fixed64 C.T bytes; pure (.w64 x)
  | .sfixed64 => do let x ← read_sfixed64 C.T bytes; pure (.w64 x)
  | .double => do let x ← read_double C.T bytes; pure (.w64 x)
  | .fixed32 => do let x ← read_fixed32 C.T bytes; pure (.w32 x)
  | .sfixed32 => do let x ← read_sfixed32 C.T bytes; pure (.w32 x)
  | .float => do let x ← read_float C.T bytes; pure (.w32 x)
  | .stringCow | .string_ => do let x ← read_string C.T bytes; pure (.bytes x)
  | .bytesCow | .bytes_ => do let x ← read_bytes C.T bytes; pure (.bytes x)
  | .message m => read_message C.T bytes (rd m bytes)
  | .map _ _ | .messageOrEnum _ => SM.lift .panic

/-- One arm `Ok(tag) => …` of the generated `match`: the struct member it assigns, the field it
comes from, and the variant number when the member is a oneof. -/
structure Arm where
  slot : Nat
  field : Field
  choice : Option Nat

/-- types.rs 1692-1698: the arms, fields first, then oneofs (2388-2424). -/
def arms (cfg : Config) (m : Message) : List Arm :=
  (members cfg m).zipIdx.flatMap fun (mem, j) =>
    match mem with
    | .field f => [⟨j, f, Option.none⟩]
    | .oneof fs => fs.zipIdx.map fun (f, i) => ⟨j, f, Option.some i⟩

/-- What an arm reads: one value; a whole packed list; or one map entry (as a one-entry map).
types.rs 857-935 (`write_match_tag` of a field) and 2388-2424 (of a oneof). -/
def armRead (C : Ctx) (rd : MessageIndex → Bytes → RM RVal) (fuel : Nat) (a : Arm) (bytes : Bytes) :
    RM RVal :=
  if a.choice.isSome || a.field.boxed then readTyp C rd a.field.typ bytes
  else match a.field.frequency.generated with
    | .singular => readTyp C rd a.field.typ bytes
    | .arrayLike =>
      if a.field.isPacked then
        if a.field.typ.isFixedSize then
          if a.field.typ.wireTypeNumNonPacked = 1 then do
            let p ← read_packed_fixed C.T (MemTy.int C.T 8) bytes
            pure (.pf64 p)
          else do
            let p ← read_packed_fixed C.T (MemTy.int C.T 4) bytes
            pure (.pf32 p)
        else do
          let l ← read_packed C.T fuel bytes (readTyp C rd a.field.typ bytes)
          pure (.vec l)
      else readTyp C rd a.field.typ bytes
    | .map =>
      match a.field.typ with
      | .map k v => do
        let kv ← read_map C.T fuel bytes (typDefault C k) (typDefault C v) (readTyp C rd k bytes)
          (readTyp C rd v bytes)
        pure (.map [kv])
      | _ => SM.lift .panic

/-- What an arm then does to the member: `msg.x = v`, `= Some(v)`, `.push(v)`, `.insert(k, v)`,
`= OneOf::Variant(v)`. Same lines as `armRead`. -/
def armApply (a : Arm) (old new : RVal) : RVal :=
  match a.choice with
  | Option.some i => .choice i new
  | Option.none =>
    if a.field.boxed then .some new
    else match a.field.frequency.generated with
      | .singular => if a.field.frequency.isOptional then .some new else new
      | .arrayLike =>
        if a.field.isPacked then new
        else match old with
          | .vec l => .vec (l ++ [new])
          | o => o
      | .map =>
        match old, new with
        | .map l, .map [(k, v)] => .map (insertKV k v l)
        | o, _ => o

/-- Update member `j`. -/
def setSlot (j : Nat) (f : RVal → RVal) (slots : List RVal) : List RVal := slots.modify j f

/-- One iteration of the generated loop: read a tag, run the first arm with that tag, or
`read_unknown` (types.rs 1690-1706). -/
def msgStep (C : Ctx) (rd : MessageIndex → Bytes → RM RVal) (fuel : Nat) (as : List Arm)
    (bytes : Bytes) (slots : List RVal) : RM (List RVal) := do
  let t ← next_tag bytes
  match as.find? (fun a => a.field.tag == t) with
  | Option.some a => do
    let v ← armRead C rd fuel a bytes
    pure (setSlot a.slot (fun old => armApply a old v) slots)
  | Option.none => do
    read_unknown C.T bytes t
    pure slots

/-- The members of a struct value. -/
def RVal.slots : RVal → List RVal
  | .struct l => l
  | _ => []

/-- types.rs 1664-1718, the generated `from_reader`. `fuel` bounds both the nesting depth and the
number of loop iterations; running out is `timeout`. -/
def fromReader (C : Ctx) : (fuel : Nat) → MessageIndex → Bytes → RM RVal
  | 0, _, _ => SM.lift .timeout
  | n + 1, idx, bytes =>
    match C.D.getMessage idx with
    | Option.none => SM.lift .panic
    | Option.some m =>
      if m.isUnit then do
        read_to_end
        pure (C.dflt idx)
      else do
        let slots ← whileNotEof (msgStep C (fromReader C n) (n + 1) (arms C.cfg m) bytes) (n + 1)
          (C.dflt idx).slots
        pure (.struct slots)

/-! ## Writing -/

/-- types.rs 478-514, `get_write`. A value that does not have the type panics (in Rust it does not
exist). -/
def writeTyp {W : Type} [WriterBackend W] (wr : MessageIndex → MessageWrite RVal) :
    FieldType → RVal → SM W Unit
  | .int32, .w32 x => write_int32 x
  | .int64, .w64 x => write_int64 x
  | .uint32, .w32 x => write_uint32 x
  | .uint64, .w64 x => write_uint64 x
  | .sint32, .w32 x => write_sint32 x
  | .sint64, .w64 x => write_sint64 x
  | .bool, .bool b => write_bool b
  | .enum _, .w32 x => write_enum x
  | .fixed64, .w64 x => write_fixed64 x
  | .sfixed64, .w64 x => write_sfixed64 x
  | .double, .w64 x => write_double x
  | .fixed32, .w32 x => write_fixed32 x
  | .sfixed32, .w32 x => write_sfixed32 x
  | .float, .w32 x => write_float x
  | .stringCow, .bytes b => write_string b
  | .string_, .bytes b => write_string b
  | .bytesCow, .bytes b => write_bytes b
  | .bytes_, .bytes b => write_bytes b
  | .message m, v => write_message (wr m) v
  | _, _ => SM.lift .panic

/-- types.rs 448-476, `get_size`: `sizeof_varint(*(&s) as u64)`, … -/
def sizeTyp (wr : MessageIndex → MessageWrite RVal) : FieldType → RVal → Nat
  | .int32, .w32 x => sizeof_varint (x.signExtend 64)
  | .int64, .w64 x => sizeof_varint x
  | .uint32, .w32 x => sizeof_varint (x.setWidth 64)
  | .uint64, .w64 x => sizeof_varint x
  | .bool, .bool b => sizeof_varint (if b then 1 else 0)
  | .enum _, .w32 x => sizeof_varint (x.signExtend 64)
  | .sint32, .w32 x => sizeof_sint32 x
  | .sint64, .w64 x => sizeof_sint64 x
  | .fixed64, _ | .sfixed64, _ | .double, _ => 8
  | .fixed32, _ | .sfixed32, _ | .float, _ => 4
  | .stringCow, .bytes b | .bytesCow, .bytes b => sizeof_len b.length
  | .string_, .bytes b | .bytes_, .bytes b => sizeof_len b.length
  | .message m, v => sizeof_len ((wr m).get_size v)
  | _, _ => 0

/-- types.rs 462-464, the size of a map entry: `2 + size(k) + size(v)`. -/
def sizeEntry (wr : MessageIndex → MessageWrite RVal) (k v : FieldType) (kv : RVal × RVal) : Nat :=
  2 + sizeTyp wr k kv.1 + sizeTyp wr v kv.2

/-- types.rs 1082-1237, `write_write` of a field. -/
def writeField {W : Type} [WriterBackend W] (C : Ctx) (wr : MessageIndex → MessageWrite RVal)
    (f : Field) (v : RVal) : SM W Unit :=
  match f.frequency.generated with
  | .singular =>
    match f.hasPresence, f.frequency.isOptional with
    | true, true =>
      match v with
      | .some x => write_with_tag f.tag (writeTyp wr f.typ x)
      | .none => pure ()
      | _ => SM.lift .panic
    | true, false => write_with_tag f.tag (writeTyp wr f.typ v)
    | false, false =>
      if scalarEq f.typ v (fieldDefault C f) then pure ()
      else write_with_tag f.tag (writeTyp wr f.typ v)
    | false, true => SM.lift .panic  -- an optional field always has presence
  | .arrayLike =>
    if f.isPacked then
      if f.typ.isFixedSize then
        match v with
        | .pf64 p => write_packed_fixed_with_tag (MemTy.int C.T 8) f.tag p
        | .pf32 p => write_packed_fixed_with_tag (MemTy.int C.T 4) f.tag p
        | _ => SM.lift .panic
      else
        match v with
        | .vec l => write_packed_with_tag f.tag l (writeTyp wr f.typ) (sizeTyp wr f.typ)
        | _ => SM.lift .panic
    else
      match v with
      | .vec l => writeEach (fun x => write_with_tag f.tag (writeTyp wr f.typ x)) l
      | _ => SM.lift .panic
  | .map =>
    match f.typ, v with
    | .map k t, .map l =>
      writeEach (fun (kv : RVal × RVal) =>
        write_with_tag f.tag (write_map (sizeEntry wr k t kv) (Pbrs.tag 1 k false)
          (writeTyp wr k kv.1) (Pbrs.tag 2 t false) (writeTyp wr t kv.2))) l
    | _, _ => SM.lift .panic

/-- `p.len()` of a `PackedFixed` in generated `get_size` (never divides by zero: the element types
have 4 or 8 bytes). -/
def pfLen {α : Type} (M : MemTy α) (p : PackedFixed α) : Nat :=
  match p.len M with
  | .ok n => n
  | _ => 0

/-- types.rs 937-1049, `write_get_size` of a field. -/
def sizeField (C : Ctx) (wr : MessageIndex → MessageWrite RVal) (f : Field) (v : RVal) : Nat :=
  let tagSize := sizeofVarint f.tag
  match f.frequency.generated with
  | .singular =>
    match f.hasPresence, f.frequency.isOptional with
    | true, true =>
      match v with
      | .some x => tagSize + sizeTyp wr f.typ x
      | _ => 0
    | true, false => tagSize + sizeTyp wr f.typ v
    | false, false =>
      if scalarEq f.typ v (fieldDefault C f) then 0 else tagSize + sizeTyp wr f.typ v
    | false, true => 0
  | .arrayLike =>
    if f.isPacked then
      match v with
      | .pf64 p => if p.is_empty then 0 else tagSize + sizeof_len (pfLen (MemTy.int C.T 8) p * 8)
      | .pf32 p => if p.is_empty then 0 else tagSize + sizeof_len (pfLen (MemTy.int C.T 4) p * 4)
      | .vec l => if l.isEmpty then 0 else tagSize + sizeof_len (l.map (sizeTyp wr f.typ)).sum
      | _ => 0
    else
      match v with
      | .vec l =>
        if f.typ.wireTypeNumNonPacked = 1 then (tagSize + 8) * l.length
        else if f.typ.wireTypeNumNonPacked = 5 then (tagSize + 4) * l.length
        else (l.map (fun x => tagSize + sizeTyp wr f.typ x)).sum
      | _ => 0
  | .map =>
    match f.typ, v with
    | .map k t, .map l => (l.map (fun kv => tagSize + sizeof_len (sizeEntry wr k t kv))).sum
    | _, _ => 0

/-- types.rs 1082-1237 and 2478-2534, `write_write` of a struct member. -/
def writeMember {W : Type} [WriterBackend W] (C : Ctx) (wr : MessageIndex → MessageWrite RVal)
    (mem : Member) (v : RVal) : SM W Unit :=
  match mem with
  | .field f => writeField C wr f v
  | .oneof fs =>
    match v with
    | .choice i x =>
      match fs[i]? with
      | Option.some f => write_with_tag f.tag (writeTyp wr f.typ x)
      | Option.none => SM.lift .panic
    | .none => pure ()
    | _ => SM.lift .panic

/-- types.rs 937-1049 and 2426-2476, `write_get_size` of a struct member. -/
def sizeMember (C : Ctx) (wr : MessageIndex → MessageWrite RVal) (mem : Member) (v : RVal) : Nat :=
  match mem with
  | .field f => sizeField C wr f v
  | .oneof fs =>
    match v with
    | .choice i x =>
      match fs[i]? with
      | Option.some f => sizeofVarint f.tag + sizeTyp wr f.typ x
      | Option.none => 0
    | _ => 0

/-- types.rs 1720-1753, 1898-1914, 1935-1960, the generated `impl MessageWrite` (for a unit message
the trait's defaults: size 0, write nothing; it has no members). `fuel` bounds the nesting depth.
Simplification: the `usize` sums do not overflow. -/
def writeImpl (C : Ctx) : (fuel : Nat) → MessageIndex → MessageWrite RVal
  | 0, _ => ⟨fun _ => 0, fun _ _ => SM.lift .timeout⟩
  | n + 1, idx =>
    match C.D.getMessage idx with
    | Option.none => ⟨fun _ => 0, fun _ _ => SM.lift .panic⟩
    | Option.some m =>
      { get_size := fun v =>
          (List.zipWith (sizeMember C (writeImpl C n)) (members C.cfg m) v.slots).sum
        write_message := fun v _ _ =>
          writeEach (fun (p : Member × RVal) => writeMember C (writeImpl C n) p.1 p.2)
            ((members C.cfg m).zip v.slots) }

end QP.Gen
