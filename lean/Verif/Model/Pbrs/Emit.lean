import Verif.Model.Pbrs.Doc
import Verif.Model.Pbrs.Lifetime
import Verif.Model.Pbrs.Passes
/-!
# The text of the generated code (all the `write_*` functions of `pb-rs/src/types.rs`)

The templates are those of the source: `write!`/`format!` with `{}` is `d!`, `writeln!` adds `Doc.nl`. What is printed on the
terminal (`println!`) is left out. `write!` to a file does not fail here.

`self.has_lifetime(..)` of a message looks at the message at the position noted in it (`index`), which after compiling is its
own position (C65_compiled).
-/

namespace QP.Pbrs

/-- Why printing fails. -/
inductive EmitError where
  /-- `Error::ReadFnMap` -/
  | readFnMap
  /-- a panic -/
  | panic
deriving DecidableEq, Repr

/-- The result of a function that writes. -/
abbrev Emit := Except EmitError

/-- `unwrap`, `expect`, `unreachable!`. -/
def orPanic {α : Type} : Option α → Emit α
  | some a => .ok a
  | none => .error .panic

/-- A loop that writes. -/
def emitAll {α : Type} (f : α → Emit Doc) : List α → Emit Doc
  | [] => .ok .empty
  | a :: as => do
    let d ← f a
    let ds ← emitAll f as
    pure (d ++ ds)

/-- `[..].join(", ")`. -/
def joinComma : List Str → Doc
  | [] => .empty
  | [s] => .lit s
  | s :: ss => d!"{s}, {joinComma ss}"

/-- types.rs 1244-1252, `get_modules`. -/
def getModules (module : Str) (imported : Bool) (D : FileDescriptor) : Doc :=
  let skip := if D.package.isEmpty && !imported then 1 else 0
  Doc.concat ((((splitDot module).filter (fun p => !p.isEmpty)).drop skip).map fun p => d!"{p}::")

/-- types.rs 1391-1393. -/
def Message.getModules (D : FileDescriptor) (m : Message) : Doc := Pbrs.getModules m.module m.imported D
/-- types.rs 2162-2164. -/
def Enumerator.getModules (D : FileDescriptor) (e : Enumerator) : Doc := Pbrs.getModules e.module e.imported D
/-- types.rs 2276-2278. -/
def OneOf.getModules (D : FileDescriptor) (o : OneOf) : Doc := Pbrs.getModules o.module o.imported D

namespace FieldType

/-- types.rs 186-188, `is_cow`. -/
def isCow : FieldType → Bool
  | stringCow | bytesCow => true
  | _ => false

/-- types.rs 190-192, `is_non_cow_string_or_byte` (and 239-241, `has_bytes_and_string`). -/
def isNonCow : FieldType → Bool
  | string_ | bytes_ => true
  | _ => false

/-- types.rs 199-217, `need_to_dereference`. -/
def needToDereference : FieldType → Bool
  | enum _ | int32 | sint32 | int64 | sint64 | uint32 | uint64 | bool | fixed64 | sfixed64 | double | fixed32 | sfixed32
  | float => true
  | _ => false

/-- types.rs 231-237, `has_cow`. -/
def hasCow : FieldType → Bool
  | bytesCow | stringCow => true
  | map k v => k.hasCow || v.hasCow
  | _ => false

/-- types.rs 285-309, `proto_type`; the panic on an unresolved name is left to the callers, which panic themselves. -/
def protoType : FieldType → Str
  | int32 => c! "int32"
  | sint32 => c! "sint32"
  | int64 => c! "int64"
  | sint64 => c! "sint64"
  | uint32 => c! "uint32"
  | uint64 => c! "uint64"
  | bool => c! "bool"
  | enum _ => c! "enum"
  | fixed32 => c! "fixed32"
  | sfixed32 => c! "sfixed32"
  | float => c! "float"
  | fixed64 => c! "fixed64"
  | sfixed64 => c! "sfixed64"
  | double => c! "double"
  | string_ => c! "string"
  | bytes_ => c! "bytes"
  | stringCow => c! "string"
  | bytesCow => c! "bytes"
  | message _ => c! "message"
  | map _ _ => c! "map"
  | messageOrEnum _ => []

/-- types.rs 315-344, `singular_field_defaults`. -/
def singularDefault (D : FileDescriptor) : FieldType → Emit Doc
  | int32 | sint32 | sfixed32 => pure d!"0i32"
  | int64 | sint64 | sfixed64 => pure d!"0i64"
  | uint32 | fixed32 => pure d!"0u32"
  | uint64 | fixed64 => pure d!"0u64"
  | bool => pure d!"false"
  | float => pure d!"0f32"
  | double => pure d!"0f64"
  | stringCow => pure d!"Cow::Borrowed(\"\")"
  | string_ => pure d!"\"\".to_string()"
  | bytesCow => pure d!"Cow::Borrowed(b\"\")"
  | bytes_ => pure d!"Vec::<u8>::new()"
  | enum e => do
    let en ← orPanic (D.getEnum e)
    let f ← orPanic en.fullyQualified.head?
    pure (.lit f)
  | message m => do
    let m ← orPanic (D.getMessage m)
    pure d!"{m.getModules D}{m.name}::default()"
  | _ => .error .panic

/-- types.rs 380-413, `rust_type`. -/
def typeText (D : FileDescriptor) (cfg : Config) : FieldType → Emit Doc
  | int32 | sint32 | sfixed32 => pure d!"i32"
  | int64 | sint64 | sfixed64 => pure d!"i64"
  | uint32 | fixed32 => pure d!"u32"
  | uint64 | fixed64 => pure d!"u64"
  | double => pure d!"f64"
  | float => pure d!"f32"
  | stringCow => pure d!"Cow<'a, str>"
  | bytesCow => pure d!"Cow<'a, [u8]>"
  | string_ => pure d!"String"
  | bytes_ => pure d!"Vec<u8>"
  | bool => pure d!"bool"
  | enum e => do
    let e ← orPanic (D.getEnum e)
    pure d!"{e.getModules D}{e.name}"
  | message i => do
    let m ← orPanic (D.getMessage i)
    let l ← orPanic (Pbrs.hasLifetime D cfg [] i)
    let lifetime := if l then d!"<'a>" else d!""
    pure d!"{m.getModules D}{m.name}{lifetime}"
  | map k v => do
    let k ← k.typeText D cfg
    let v ← v.typeText D cfg
    pure d!"KVMap<{k}, {v}>"
  | messageOrEnum _ => .error .panic

/-- types.rs 416-449, `read_fn`: the expressions for plain and for `Cow` values. -/
def readFn (D : FileDescriptor) : FieldType → Emit (Doc × Doc)
  | message i => do
    let m ← orPanic (D.getMessage i)
    let m := d!"r.read_message::<{m.getModules D}{m.name}>(bytes)?"
    pure (m, m)
  | map _ _ => .error .readFnMap
  | t@stringCow | t@bytesCow =>
    let m := d!"r.read_{t.protoType}(bytes)"
    let cow := d!"{m}.map(Cow::Borrowed)?"
    pure (m, cow)
  | t@string_ | t@bytes_ =>
    let m := d!"r.read_{t.protoType}(bytes)"
    let vec := d!"{m}?.to_owned()"
    pure (m, vec)
  | messageOrEnum _ => .error .panic
  | t =>
    let m := d!"r.read_{t.protoType}(bytes)?"
    pure (m, m)

/-- types.rs 451-476, `get_size`. -/
def getSize : FieldType → Doc → Emit Doc
  | int32, s | int64, s | uint32, s | uint64, s | bool, s | enum _, s => pure d!"sizeof_varint(*(&{s}) as u64)"
  | sint32, s => pure d!"sizeof_sint32(*(&{s}))"
  | sint64, s => pure d!"sizeof_sint64(*(&{s}))"
  | fixed64, _ | sfixed64, _ | double, _ => pure d!"8"
  | fixed32, _ | sfixed32, _ | float, _ => pure d!"4"
  | stringCow, s | bytesCow, s => pure d!"sizeof_len((&{s}).len())"
  | string_, s | bytes_, s => pure d!"sizeof_len({s}.len())"
  | message _, s => pure d!"sizeof_len(({s}).get_size())"
  | map k v, _ => do
    let k ← k.getSize d!"k"
    let v ← v.getSize d!"v"
    pure d!"2 + {k} + {v}"
  | messageOrEnum _, _ => .error .panic

/-- types.rs 478-514, `get_write`. -/
def getWrite : FieldType → Doc → Bool → Emit Doc
  | enum _, s, _ => pure d!"write_enum(*&{s} as i32)"
  | t@int32, s, _ | t@sint32, s, _ | t@int64, s, _ | t@sint64, s, _ | t@uint32, s, _ | t@uint64, s, _ | t@bool, s, _
  | t@fixed64, s, _ | t@sfixed64, s, _ | t@double, s, _ | t@fixed32, s, _ | t@sfixed32, s, _ | t@float, s, _ =>
    pure d!"write_{t.protoType}(*&{s})"
  | stringCow, s, _ => pure d!"write_string({s})"
  | bytesCow, s, _ => pure d!"write_bytes({s})"
  | string_, s, _ => pure d!"write_string({s})"
  | bytes_, s, _ => pure d!"write_bytes({s})"
  | message _, s, true => pure d!"write_message(&*({s}))"
  | message _, s, false => pure d!"write_message({s})"
  | map k v, _, _ => do
    let size ← (map k v).getSize d!""
    let kw ← k.getWrite d!"k" false
    let vw ← v.getWrite d!"v" false
    pure d!"write_map({size}, {tag 1 k false}, |w| w.{kw}, {tag 2 v false}, |w| w.{vw})"
  | messageOrEnum _, _, _ => .error .panic

end FieldType

namespace Field

/-- types.rs 564-575, `must_generate_custom_default_const`. -/
def mustGenerateCustomDefaultConst (D : FileDescriptor) (cfg : Config) (f : Field) : Bool :=
  f.hasValidVisibleCustomDefault D cfg && f.frequency.isOptional

/-- types.rs 577-589, `must_generate_getter`. -/
def mustGenerateGetter (D : FileDescriptor) (cfg : Config) (f : Field) : Bool :=
  f.mustGenerateCustomDefaultConst D cfg && cfg.generateGetters

/-- types.rs 660-662, `get_default_const_name`. -/
def defaultConstName (f : Field) : Doc := d!"DEFAULT_{f.name}"

/-- types.rs 664-674, `rust_type_incl_non_cow`. -/
def typeTextInclNonCow (D : FileDescriptor) (cfg : Config) (f : Field) : Emit Doc :=
  match f.typ with
  | .string_ => pure d!"&str"
  | .bytes_ => pure d!"&[u8]"
  | t => t.typeText D cfg

/-- types.rs 591-638, `write_getter`. -/
def writeGetter (D : FileDescriptor) (cfg : Config) (f : Field) : Emit Doc :=
  if !f.mustGenerateGetter D cfg then pure .empty
  else do
    let name := f.name
    let returnType ← f.typeTextInclNonCow D cfg
    let returnType := if f.typ.isCow then d!"&{returnType}" else returnType
    let defaultConstName := f.defaultConstName
    let body := match f.typ with
      | .string_ => ln d!"        &self.{name}.as_ref().map(|s| s.as_str()).unwrap_or(Self::{defaultConstName})"
      | .bytes_ => ln d!"        &self.{name}.as_ref().map(|s| s.as_slice()).unwrap_or(Self::{defaultConstName})"
      | t =>
        let dontDerefIfCow := if !t.isCow then d!"*" else d!""
        ln d!"        {dontDerefIfCow}self.{name}.as_ref().unwrap_or(&Self::{defaultConstName})"
    pure (ln d!"    pub fn get_{name}(&self) -> {returnType} \{" ++ body ++ ln d!"    }")

/-- types.rs 640-658, `can_write_default_const`. -/
def canWriteDefaultConst (D : FileDescriptor) (cfg : Config) (f : Field) : Bool :=
  let isProto3 := D.syntax_ == .proto3
  let isMessageOrMap := !f.typ.needToDereference && !f.typ.isCow && !f.typ.isNonCow
  let noCustomDefault := f.default.isNone
  let absent := f.deprecated && !cfg.addDeprecatedFields
  !(isProto3 || isMessageOrMap || noCustomDefault || absent || !f.frequency.isOptional)

/-- types.rs 676-697, `write_custom_default`. -/
def writeCustomDefault (D : FileDescriptor) (cfg : Config) (f : Field) : Emit Doc :=
  if !f.canWriteDefaultConst D cfg then pure .empty
  else do
    let gotType ← f.typeTextInclNonCow D cfg
    let customDefault ← orPanic f.default
    pure (ln d!"    pub const {f.defaultConstName}: {gotType} = {customDefault};")

/-- types.rs 718-771, `get_field_default`. -/
def defaultText (D : FileDescriptor) (cfg : Config) (f : Field) : Emit Doc :=
  match f.frequency.generated with
  | .singular =>
    if f.boxed then pure d!"None"
    else if f.frequency.isOptional then pure d!"None"
    else match f.default with
      | some customDefault =>
        match f.typ with
        | .string_ => pure d!"{customDefault}.to_string()"
        | .bytes_ => pure d!"{customDefault}.to_vec()"
        | _ => pure (.lit customDefault)
      | none => f.typ.singularDefault D
  | .arrayLike =>
    if f.isPacked && f.typ.isFixedSize && !cfg.dontUseCow then pure d!"PackedFixed::from(Vec::new())"
    else pure d!"Vec::new()"
  | .map => pure d!"HashMap::new()"

/-- types.rs 699-716, `write_default`. -/
def writeDefault (D : FileDescriptor) (cfg : Config) (f : Field) : Emit Doc :=
  if f.deprecated && !cfg.addDeprecatedFields then pure .empty
  else do
    let d ← f.defaultText D cfg
    pure (ln d!"            {f.name}: {d},")

/-- types.rs 812-837, `get_type`. -/
def fieldTypeText (D : FileDescriptor) (cfg : Config) (f : Field) : Emit Doc := do
  let t ← f.typ.typeText D cfg
  if f.boxed then pure d!"Option<Box<{t}>>"
  else match f.frequency.generated with
    | .singular => if f.frequency.isOptional then pure d!"Option<{t}>" else pure t
    | .arrayLike =>
      if f.isPacked && f.typ.isFixedSize && !cfg.dontUseCow then pure d!"PackedFixed<'a, {t}>"
      else pure d!"Vec<{t}>"
    | .map => pure t

/-- types.rs 839-855, `write_definition`. -/
def writeDefinition (D : FileDescriptor) (cfg : Config) (f : Field) : Emit Doc :=
  let line : Emit Doc := do
    let t ← f.fieldTypeText D cfg
    pure (ln d!"    pub {f.name}: {t},")
  if f.deprecated then
    if cfg.addDeprecatedFields then do
      let l ← line
      pure (ln d!"    #[deprecated]" ++ l)
    else pure .empty
  else line

/-- types.rs 869-935, what `write_match_tag` writes after the tag. -/
def matchArm (D : FileDescriptor) (f : Field) : Emit Doc := do
  let (val, valCow) ← if f.frequency.isMap then pure (d!"", d!"") else f.typ.readFn D
  let name := f.name
  if f.boxed then pure (ln d!"msg.{name} = Some(Box::new({val})),")
  else match f.frequency.generated with
    | .singular =>
      match f.frequency with
      | .p2optional => pure (ln d!"msg.{name} = Some({valCow}),")
      | .p2required => pure (ln d!"msg.{name} = {valCow},")
      | .p3optional => pure (ln d!"msg.{name} = Some({valCow}),")
      | .p3default => pure (ln d!"msg.{name} = {valCow},")
      | _ => .error .panic
    | .arrayLike =>
      if f.isPacked then
        if f.typ.isFixedSize then pure (ln d!"msg.{name} = r.read_packed_fixed(bytes)?,")
        else pure (ln d!"msg.{name} = r.read_packed(bytes, |r, bytes| Ok({valCow}))?,")
      else pure (ln d!"msg.{name}.push({valCow}),")
    | .map =>
      match f.typ with
      | .map key value => do
        let k ← key.readFn D
        let v ← value.readFn D
        pure (ln d!"\{"
          ++ ln d!"                    let (key, value) = r.read_map(bytes, |r, bytes| Ok({k.2}), |r, bytes| Ok({v.2}))?;"
          ++ ln d!"                    msg.{name}.insert(key, value);"
          ++ ln d!"                }")
      | _ => .error .panic

/-- types.rs 857-935, `write_match_tag`. -/
def writeMatchTag (D : FileDescriptor) (cfg : Config) (f : Field) : Emit Doc :=
  if f.deprecated && !cfg.addDeprecatedFields then pure .empty
  else do
    let arm ← f.matchArm D
    pure (d!"                Ok({f.tag}) => " ++ arm)

/-- types.rs 970-979, `get_size_addition`. -/
def sizeAddition (tagSize : Nat) (s : Doc) (f : Field) : Emit Doc := do
  let actualSize ← f.typ.getSize (if f.typ.isFixedSize then d!"" else s)
  pure d!"{tagSize} + {actualSize}"

/-- types.rs 948-1047, what `write_get_size` writes after the plus sign. -/
def sizeText (D : FileDescriptor) (cfg : Config) (f : Field) : Emit Doc :=
  let tagSize := sizeofVarint f.tag
  let name := f.name
  match f.frequency.generated with
  | .singular => do
    let def_ ← f.defaultText D cfg
    let mSizeAddition ← f.sizeAddition tagSize d!"m"
    let selfNameSizeAddition ← f.sizeAddition tagSize d!"self.{name}"
    let maybeDerefM := if f.boxed || !f.typ.isPrimitive then d!"m" else d!"&m"
    match !f.hasPresence, f.frequency.isOptional with
    | true, true => pure (ln d!"self.{name}.as_ref().map_or(0, |{maybeDerefM}| if m != {def_} \{ {mSizeAddition} } else \{ 0 }")
    | true, false => pure (ln d!"if self.{name} == {def_} \{ 0 } else \{ {selfNameSizeAddition} }")
    | false, true => pure (ln d!"self.{name}.as_ref().map_or(0, |{maybeDerefM}| {mSizeAddition})")
    | false, false => pure (ln selfNameSizeAddition)
  | .arrayLike =>
    if f.isPacked then do
      let start := d!"if self.{name}.is_empty() \{ 0 } else \{ {tagSize} + "
      match f.typ.wireTypeNumNonPacked with
      | 1 => pure (start ++ ln d!"sizeof_len(self.{name}.len() * 8) }")
      | 5 => pure (start ++ ln d!"sizeof_len(self.{name}.len() * 4) }")
      | _ => do
        let s ← f.typ.getSize d!"s"
        pure (start ++ ln d!"sizeof_len(self.{name}.iter().map(|&s| {s}).sum::<usize>()) }")
    else
      match f.typ.wireTypeNumNonPacked with
      | 1 => pure (ln d!"({tagSize} + 8) * self.{name}.len()")
      | 5 => pure (ln d!"({tagSize} + 4) * self.{name}.len()")
      | _ => do
        let maybeAmpersand := if f.typ.needToDereference then d!"&" else d!""
        let gotSize ← f.typ.getSize d!"s"
        pure (ln d!"self.{name}.iter().map(|{maybeAmpersand}s| {tagSize} + {gotSize}).sum::<usize>()")
  | .map =>
    match f.typ with
    | .map k v => do
      let maybeAmpersandK := if k.needToDereference then d!"&" else d!""
      let maybeAmpersandV := if v.needToDereference then d!"&" else d!""
      let gotSize ← f.typ.getSize d!""
      pure (ln d!"self.{name}.iter().map(|({maybeAmpersandK}k, {maybeAmpersandV}v)| {tagSize} + sizeof_len({gotSize})).sum::<usize>()")
    | _ => .error .panic

/-- types.rs 937-1049, `write_get_size`. -/
def writeGetSize (D : FileDescriptor) (cfg : Config) (f : Field) : Emit Doc :=
  if f.deprecated && !cfg.addDeprecatedFields then pure .empty
  else do
    let s ← f.sizeText D cfg
    pure (d!"        + " ++ s)

/-- types.rs 1117-1153, `apply_unwrapping_code`. -/
def applyUnwrappingCode (f : Field) (equatingCows : Bool) (s : Doc) : Doc :=
  let core := s
  let core := if f.boxed then d!"*({core})" else core
  let core := if !f.typ.needToDereference && !f.typ.isCow && !f.frequency.isOptional && !f.typ.isNonCow then d!"&{core}" else core
  if !equatingCows then if f.typ.isCow || f.typ.isNonCow then d!"&{core}" else core
  else core

/-- types.rs 1155-1161, `get_write_method`. -/
def getWriteMethod (f : Field) (s : Doc) : Emit Doc := do
  let w ← f.typ.getWrite s f.boxed
  pure d!"w.write_with_tag({f.tag}, |w| w.{w})"

/-- types.rs 1095-1238, what `write_write` writes after the indentation. -/
def writeText (D : FileDescriptor) (cfg : Config) (f : Field) : Emit Doc :=
  let name := f.name
  match f.frequency.generated with
  | .singular => do
    let def_ ← f.defaultText D cfg
    let mCore := f.applyUnwrappingCode false d!"m"
    let selfNameCore := f.applyUnwrappingCode false d!"self.{name}"
    let mWriteMethod ← f.getWriteMethod mCore
    let selfNameWriteMethod ← f.getWriteMethod selfNameCore
    let maybeDerefM := if f.boxed || !f.typ.isPrimitive then d!"m" else d!"&m"
    let selfNameCoreEquatingCows := f.applyUnwrappingCode true d!"self.{name}"
    match !f.hasPresence, f.frequency.isOptional with
    | true, true => pure (ln d!"self.{name}.as_ref().map_or(Ok(()), |{maybeDerefM}| if {mCore} != {def_} \{ {mWriteMethod} } else \{ Ok(()) })?;")
    | true, false => pure (ln d!"if {selfNameCoreEquatingCows} != {def_} \{ {selfNameWriteMethod}?; }")
    | false, true => pure (ln d!"self.{name}.as_ref().map_or(Ok(()), |{maybeDerefM}| {mWriteMethod})?;")
    | false, false => pure (ln d!"{selfNameWriteMethod}?;")
  | .arrayLike =>
    if f.isPacked then
      if f.typ.isFixedSize then pure (ln d!"w.write_packed_fixed_with_tag({f.tag}, &self.{name})?;")
      else do
        let w ← f.typ.getWrite d!"m" f.boxed
        let s ← f.typ.getSize d!"m"
        pure (ln d!"w.write_packed_with_tag({f.tag}, &self.{name}, |w, &m| w.{w}, &|&m| {s})?;")
    else do
      let maybeDerefS := if f.typ.needToDereference then d!"*s" else d!"s"
      let w ← f.typ.getWrite maybeDerefS f.boxed
      pure (ln d!"for s in &self.{name} \{ w.write_with_tag({f.tag}, |w| w.{w})?; }")
  | .map =>
    match f.typ with
    | .map k v => do
      let maybeAmpersandK := if k.needToDereference then d!"&" else d!""
      let maybeAmpersandV := if v.needToDereference then d!"&" else d!""
      let gotWrite ← f.typ.getWrite d!"" false
      pure (ln d!"for ({maybeAmpersandK}k, {maybeAmpersandV}v) in self.{name}.iter() \{ w.write_with_tag({f.tag}, |w| w.{gotWrite})?; }")
    | _ => .error .panic

/-- types.rs 1080-1241, `write_write`. -/
def writeWrite (D : FileDescriptor) (cfg : Config) (f : Field) : Emit Doc :=
  if f.deprecated && !cfg.addDeprecatedFields then pure .empty
  else do
    let s ← f.writeText D cfg
    pure (d!"        " ++ s)

end Field

namespace OneOf

/-- types.rs 2251-2253, `write_impl_default_field`. -/
def defaultText (D : FileDescriptor) (o : OneOf) : Doc := d!"{o.getModules D}OneOf{o.name}::None"

/-- types.rs 2241-2249, `write_default`. -/
def writeDefault (D : FileDescriptor) (o : OneOf) : Doc := ln d!"            {o.name}: {o.defaultText D},"

/-- types.rs 2300-2317, one variant. -/
def variant (D : FileDescriptor) (cfg : Config) (f : Field) : Emit Doc :=
  if f.deprecated && !cfg.addDeprecatedFields then pure .empty
  else do
    let rustType ← f.typ.typeText D cfg
    let mark := if f.deprecated then ln d!"    #[deprecated]" else .empty
    pure (mark ++ (if f.boxed then ln d!"    {f.name}(Box<{rustType}>)," else ln d!"    {f.name}({rustType}),"))

/-- types.rs 2288-2325, `write_definition`, without the feature `generateImplFromForEnums`. -/
def writeDefinition (D : FileDescriptor) (cfg : Config) (o : OneOf) : Emit Doc := do
  let l ← orPanic (o.hasLifetime D cfg)
  let vs ← emitAll (variant D cfg) o.fields
  pure (ln d!"#[derive(Debug, PartialEq, Clone)]"
    ++ (if l then ln d!"pub enum OneOf{o.name}<'a> \{" else ln d!"pub enum OneOf{o.name} \{")
    ++ vs ++ ln d!"    None," ++ ln d!"}")

/-- types.rs 2355-2371, `write_impl_default`. -/
def writeImplDefault (D : FileDescriptor) (cfg : Config) (o : OneOf) : Emit Doc := do
  let l ← orPanic (o.hasLifetime D cfg)
  pure ((if l then ln d!"impl<'a> Default for OneOf{o.name}<'a> \{" else ln d!"impl Default for OneOf{o.name} \{")
    ++ ln d!"    fn default() -> Self \{" ++ ln d!"        OneOf{o.name}::None" ++ ln d!"    }" ++ ln d!"}")

/-- types.rs 2280-2286, `write`. -/
def write (D : FileDescriptor) (cfg : Config) (o : OneOf) : Emit Doc := do
  let a ← o.writeDefinition D cfg
  let b ← o.writeImplDefault D cfg
  pure (Doc.nl ++ a ++ Doc.nl ++ b)

/-- types.rs 2373-2397, `write_message_definition`. -/
def writeMessageDefinition (D : FileDescriptor) (cfg : Config) (o : OneOf) : Emit Doc := do
  let l ← orPanic (o.hasLifetime D cfg)
  if l then pure (ln d!"    pub {o.name}: {o.getModules D}OneOf{o.name}<'a>,")
  else pure (ln d!"    pub {o.name}: {o.getModules D}OneOf{o.name},")

/-- The fields of a oneof that are generated (types.rs 2405-2409, 2445-2449, 2500-2504). -/
def shown (cfg : Config) (o : OneOf) : List Field := o.fields.filter (fun f => !f.deprecated || cfg.addDeprecatedFields)

/-- types.rs 2410-2434, one arm. -/
def matchArm (D : FileDescriptor) (o : OneOf) (f : Field) : Emit Doc := do
  let (val, valCow) ← f.typ.readFn D
  if f.boxed then
    pure (ln d!"                Ok({f.tag}) => msg.{o.name} = {o.getModules D}OneOf{o.name}::{f.name}(Box::new({val})),")
  else
    pure (ln d!"                Ok({f.tag}) => msg.{o.name} = {o.getModules D}OneOf{o.name}::{f.name}({valCow}),")

/-- types.rs 2399-2436, `write_match_tag`. -/
def writeMatchTag (D : FileDescriptor) (cfg : Config) (o : OneOf) : Emit Doc := emitAll (o.matchArm D) (o.shown cfg)

/-- types.rs 2450-2480, one arm. -/
def sizeArm (D : FileDescriptor) (o : OneOf) (f : Field) : Emit Doc :=
  let tagSize := sizeofVarint f.tag
  if f.typ.isFixedSize then do
    let s ← f.typ.getSize d!""
    pure (ln d!"            {o.getModules D}OneOf{o.name}::{f.name}(_) => {tagSize} + {s},")
  else if f.typ.needToDereference then do
    let s ← f.typ.getSize d!"*m"
    pure (ln d!"            {o.getModules D}OneOf{o.name}::{f.name}(m) => {tagSize} + {s},")
  else do
    let s ← f.typ.getSize d!"m"
    pure (ln d!"            {o.getModules D}OneOf{o.name}::{f.name}(ref m) => {tagSize} + {s},")

/-- types.rs 2438-2491, `write_get_size`. -/
def writeGetSize (D : FileDescriptor) (cfg : Config) (o : OneOf) : Emit Doc := do
  let as ← emitAll (o.sizeArm D) (o.shown cfg)
  pure (ln d!"        + match &self.{o.name} \{" ++ as ++ ln d!"            {o.getModules D}OneOf{o.name}::None => 0,"
    ++ ln d!"        }")

/-- types.rs 2505-2527, one arm. -/
def writeArm (D : FileDescriptor) (o : OneOf) (f : Field) : Emit Doc :=
  if f.typ.needToDereference || f.boxed then do
    let w ← f.typ.getWrite d!"*m" f.boxed
    pure (ln d!"            {o.getModules D}OneOf{o.name}::{f.name}(m) => \{ w.write_with_tag({f.tag}, |w| w.{w})? },")
  else do
    let w ← f.typ.getWrite d!"m" f.boxed
    pure (ln d!"            {o.getModules D}OneOf{o.name}::{f.name}(m) => \{ w.write_with_tag({f.tag}, |w| w.{w})? },")

/-- types.rs 2493-2536, `write_write`. -/
def writeWrite (D : FileDescriptor) (cfg : Config) (o : OneOf) : Emit Doc := do
  let as ← emitAll (o.writeArm D) (o.shown cfg)
  pure (ln d!"        match &self.{o.name} \{" ++ as ++ ln d!"            {o.getModules D}OneOf{o.name}::None => \{},"
    ++ ln d!"        }")

end OneOf

namespace Enumerator

/-- types.rs 2182-2190, `write_definition`. -/
def writeDefinition (e : Enumerator) : Doc :=
  ln d!"#[derive(Debug, PartialEq, Eq, Clone, Copy)]" ++ ln d!"pub enum {e.name} \{"
    ++ Doc.concat (e.fields.map fun (f, number) => ln d!"    {f} = {number},") ++ ln d!"}"

/-- types.rs 2192-2200, `write_impl_default`. -/
def writeImplDefault (e : Enumerator) : Emit Doc := do
  let first ← orPanic e.partiallyQualified.head?
  pure (ln d!"impl Default for {e.name} \{" ++ ln d!"    fn default() -> Self \{" ++ ln d!"        {first}" ++ ln d!"    }" ++ ln d!"}")

/-- types.rs 2202-2214, `write_from_i32`. -/
def writeFromI32 (e : Enumerator) : Doc :=
  ln d!"impl From<i32> for {e.name} \{" ++ ln d!"    fn from(i: i32) -> Self \{" ++ ln d!"        match i \{"
    ++ Doc.concat (e.fields.map fun (f, number) => ln d!"            {number} => {e.name}::{f},")
    ++ ln d!"            _ => Self::default()," ++ ln d!"        }" ++ ln d!"    }" ++ ln d!"}"

/-- types.rs 2216-2228, `write_from_str`; names have no characters that `{:?}` escapes. -/
def writeFromStr (e : Enumerator) : Doc :=
  ln d!"impl<'a> From<&'a str> for {e.name} \{" ++ ln d!"    fn from(s: &'a str) -> Self \{" ++ ln d!"        match s \{"
    ++ Doc.concat (e.fields.map fun (f, _) => ln d!"            \"{f}\" => {e.name}::{f},")
    ++ ln d!"            _ => Self::default()," ++ ln d!"        }" ++ ln d!"    }" ++ ln d!"}"

/-- types.rs 2166-2180, `write`. -/
def write (e : Enumerator) : Emit Doc :=
  if e.fields.isEmpty then pure (Doc.nl ++ e.writeDefinition ++ Doc.nl)
  else do
    let d ← e.writeImplDefault
    pure (Doc.nl ++ e.writeDefinition ++ Doc.nl ++ d ++ Doc.nl ++ e.writeFromI32 ++ Doc.nl ++ e.writeFromStr)

end Enumerator

namespace Message

/-- The recurring choice between `impl<'a> … Name<'a> {` and `impl … Name {` (types.rs 1308-1316 etc.). -/
def declaresLifetime (D : FileDescriptor) (cfg : Config) (m : Message) : Emit Bool := orPanic (structDeclares D cfg m.index)

/-- types.rs 1284-1329, `write_default_consts`. -/
def writeDefaultConsts (D : FileDescriptor) (cfg : Config) (m : Message) : Emit Doc :=
  if D.syntax_ ≠ .proto2 then pure .empty
  else if !m.fields.any (fun f => f.canWriteDefaultConst D cfg) then pure .empty
  else do
    let l ← m.declaresLifetime D cfg
    let fs ← emitAll (Field.writeCustomDefault D cfg) m.fields
    pure ((if l then ln d!"impl<'a> {m.name}<'a> \{" else ln d!"impl {m.name} \{") ++ fs ++ ln d!"}" ++ Doc.nl)

/-- types.rs 1460-1481, `write_getters`. -/
def writeGetters (D : FileDescriptor) (cfg : Config) (m : Message) : Emit Doc := do
  let l ← m.declaresLifetime D cfg
  let fs ← emitAll (Field.writeGetter D cfg) m.fields
  pure ((if l then ln d!"impl<'a> {m.name}<'a> \{" else ln d!"impl {m.name} \{") ++ fs ++ ln d!"}" ++ Doc.nl)

/-- types.rs 1579-1629, `write_definition`. -/
def writeDefinition (D : FileDescriptor) (cfg : Config) (m : Message) : Emit Doc := do
  let derive := joinComma cfg.customStructDerive
  let derive := if !m.mustGenerateImplDefault D cfg then d!"{derive}Default" else derive
  let derive := if !derive.str.isEmpty then d!"{derive}, " else derive
  let start := ln d!"#[allow(clippy::derive_partial_eq_without_eq)]"
    ++ ln d!"#[derive({derive}Debug, PartialEq, Clone)]"
    ++ (match cfg.customRepr with | some repr => ln d!"#[repr({repr})]" | none => .empty)
  if m.isUnit then pure (start ++ ln d!"pub struct {m.name} \{ }")
  else do
    let l ← m.declaresLifetime D cfg
    let fs ← emitAll (Field.writeDefinition D cfg) m.fields
    let os ← emitAll (OneOf.writeMessageDefinition D cfg) m.oneofs
    pure (start ++ (if l then ln d!"pub struct {m.name}<'a> \{" else ln d!"pub struct {m.name} \{") ++ fs ++ os ++ ln d!"}")

/-- types.rs 1631-1667, `write_impl_default`. -/
def writeImplDefault (D : FileDescriptor) (cfg : Config) (m : Message) : Emit Doc :=
  if m.isUnit then
    pure (ln d!"impl Default for {m.name} \{" ++ ln d!"    fn default() -> Self \{" ++ ln d!"        Self \{}" ++ ln d!"    }" ++ ln d!"}")
  else do
    let l ← m.declaresLifetime D cfg
    let fs ← emitAll (Field.writeDefault D cfg) m.fields
    let os := Doc.concat (m.oneofs.map (OneOf.writeDefault D))
    pure ((if l then ln d!"impl<'a> Default for {m.name}<'a> \{" else ln d!"impl Default for {m.name} \{")
      ++ ln d!"    fn default() -> Self \{" ++ ln d!"        Self \{" ++ fs ++ os
      ++ ln d!"        }" ++ ln d!"    }" ++ ln d!"}")

/-- types.rs 1669-1691, `write_impl_message_info`. -/
def writeImplMessageInfo (D : FileDescriptor) (cfg : Config) (m : Message) : Emit Doc := do
  let l ← m.declaresLifetime D cfg
  pure ((if l then ln d!"impl<'a> MessageInfo for {m.name}<'a> \{" else ln d!"impl MessageInfo for {m.name} \{")
    ++ ln d!"    const PATH : &'static str = \"{m.module}.{m.name}\";" ++ ln d!"}")

/-- types.rs 1693-1751, `write_impl_message_read`. -/
def writeImplMessageRead (D : FileDescriptor) (cfg : Config) (m : Message) : Emit Doc :=
  if m.isUnit then
    pure (ln d!"impl<'a> MessageRead<'a> for {m.name} \{"
      ++ ln d!"    fn from_reader(r: &mut BytesReader, _: &[u8]) -> Result<Self> \{"
      ++ ln d!"        r.read_to_end();" ++ ln d!"        Ok(Self::default())" ++ ln d!"    }" ++ ln d!"}")
  else do
    let l ← m.declaresLifetime D cfg
    let fs ← emitAll (Field.writeMatchTag D cfg) m.fields
    let os ← emitAll (OneOf.writeMatchTag D cfg) m.oneofs
    pure ((if l then ln d!"impl<'a> MessageRead<'a> for {m.name}<'a> \{" else ln d!"impl<'a> MessageRead<'a> for {m.name} \{")
      ++ ln d!"    fn from_reader(r: &mut BytesReader, bytes: &'a [u8]) -> Result<Self> \{"
      ++ ln d!"        let mut msg = Self::default();"
      ++ ln d!"        while !r.is_eof() \{"
      ++ ln d!"            match r.next_tag(bytes) \{"
      ++ fs ++ os
      ++ ln d!"                Ok(t) => \{ r.read_unknown(bytes, t)?; }"
      ++ ln d!"                Err(e) => return Err(e),"
      ++ ln d!"            }" ++ ln d!"        }" ++ ln d!"        Ok(msg)" ++ ln d!"    }" ++ ln d!"}")

/-- types.rs 1901-1917, `write_get_size`. -/
def writeGetSize (D : FileDescriptor) (cfg : Config) (m : Message) : Emit Doc := do
  let fs ← emitAll (Field.writeGetSize D cfg) m.fields
  let os ← emitAll (OneOf.writeGetSize D cfg) m.oneofs
  pure (ln d!"    fn get_size(&self) -> usize \{" ++ ln d!"        0" ++ fs ++ os ++ ln d!"    }")

/-- types.rs 1937-1956, `write_write_message`. -/
def writeWriteMessage (D : FileDescriptor) (cfg : Config) (m : Message) : Emit Doc := do
  let fs ← emitAll (Field.writeWrite D cfg) m.fields
  let os ← emitAll (OneOf.writeWrite D cfg) m.oneofs
  pure (ln d!"    fn write_message<W: WriterBackend>(&self, w: &mut Writer<W>) -> Result<()> \{" ++ fs ++ os
    ++ ln d!"        Ok(())" ++ ln d!"    }")

/-- types.rs 1753-1778, `write_impl_message_write`. -/
def writeImplMessageWrite (D : FileDescriptor) (cfg : Config) (m : Message) : Emit Doc :=
  if m.isUnit then pure (ln d!"impl MessageWrite for {m.name} \{ }")
  else do
    let l ← m.declaresLifetime D cfg
    let s ← m.writeGetSize D cfg
    let w ← m.writeWriteMessage D cfg
    pure ((if l then ln d!"impl<'a> MessageWrite for {m.name}<'a> \{" else ln d!"impl MessageWrite for {m.name} \{")
      ++ s ++ Doc.nl ++ w ++ ln d!"}")

/-- types.rs 1780-1899, `write_impl_owned`. -/
def writeImplOwned (cfg : Config) (m : Message) : Doc :=
  let name := m.name
  d!"
            // IMPORTANT: For any future changes, note that the lifetime parameter
            // of the `proto` field is set to 'static!!!
            //
            // This means that the internals of `proto` should at no point create a
            // mutable reference to something using that lifetime parameter, on pain
            // of UB. This applies even though it may be transmuted to a smaller
            // lifetime later (through `proto()` or `proto_mut()`).
            //
            // At the time of writing, the only possible thing that uses the
            // lifetime parameter is `Cow<'a, T>`, which never does this, so it's
            // not UB.
            //
            #[derive(Debug)]
            struct {name}OwnedInner \{
                buf: Vec<u8>,
                proto: Option<{name}<'static>>,
                _pin: core::marker::PhantomPinned,
            }

            impl {name}OwnedInner \{
                fn new(buf: Vec<u8>) -> Result<core::pin::Pin<Box<Self>>> \{
                    let inner = Self \{
                        buf,
                        proto: None,
                        _pin: core::marker::PhantomPinned,
                    };
                    let mut pinned = Box::pin(inner);

                    let mut reader = BytesReader::from_bytes(&pinned.buf);
                    let proto = {name}::from_reader(&mut reader, &pinned.buf)?;

                    unsafe \{
                        let proto = core::mem::transmute::<_, {name}<'_>>(proto);
                        pinned.as_mut().get_unchecked_mut().proto = Some(proto);
                    }
                    Ok(pinned)
                }
            }

            pub struct {name}Owned \{
                inner: core::pin::Pin<Box<{name}OwnedInner>>,
            }

            #[allow(dead_code)]
            impl {name}Owned \{
                pub fn buf(&self) -> &[u8] \{
                    &self.inner.buf
                }

                pub fn proto<'a>(&'a self) -> &'a {name}<'a> \{
                    let proto = self.inner.proto.as_ref().unwrap();
                    unsafe \{ core::mem::transmute::<&{name}<'static>, &{name}<'a>>(proto) }
                }

                pub fn proto_mut<'a>(&'a mut self) -> &'a mut {name}<'a> \{
                    let inner = self.inner.as_mut();
                    let inner = unsafe \{ inner.get_unchecked_mut() };
                    let proto = inner.proto.as_mut().unwrap();
                    unsafe \{ core::mem::transmute::<_, &mut {name}<'a>>(proto) }
                }
            }

            impl core::fmt::Debug for {name}Owned \{
                fn fmt(&self, f: &mut core::fmt::Formatter<'_>) -> core::fmt::Result \{
                    self.inner.proto.as_ref().unwrap().fmt(f)
                }
            }

            impl TryFrom<Vec<u8>> for {name}Owned \{
                type Error=quick_protobuf::Error;

                fn try_from(buf: Vec<u8>) -> Result<Self> \{
                    Ok(Self \{ inner: {name}OwnedInner::new(buf)? })
                }
            }

            impl TryInto<Vec<u8>> for {name}Owned \{
                type Error=quick_protobuf::Error;

                fn try_into(self) -> Result<Vec<u8>> \{
                    let mut buf = Vec::new();
                    let mut writer = Writer::new(&mut buf);
                    self.inner.proto.as_ref().unwrap().write_message(&mut writer)?;
                    Ok(buf)
                }
            }

            impl From<{name}<'static>> for {name}Owned \{
                fn from(proto: {name}<'static>) -> Self \{
                    Self \{
                        inner: Box::pin({name}OwnedInner \{
                            buf: Vec::new(),
                            proto: Some(proto),
                            _pin: core::marker::PhantomPinned,
                        })
                    }
                }
            }
            " ++
  if cfg.genInfo then
    d!"
            impl MessageInfo for {name}Owned \{
                const PATH: &'static str = \"{m.module}.{name}\";
            }
            "
  else .empty

/-- types.rs 1919-1935, `write_impl_try_from`. -/
def writeImplTryFrom (m : Message) : Doc :=
  let name := m.name
  d!"
            impl TryFrom<&[u8]> for {name} \{
                type Error=quick_protobuf::Error;

                fn try_from(buf: &[u8]) -> Result<Self> \{
                    let mut reader = BytesReader::from_bytes(&buf);
                    Ok({name}::from_reader(&mut reader, &buf)?)
                }
            }
            "

/-- types.rs 1427-1441, the test for `Box` in `write_common_uses`. -/
def usesBox (D : FileDescriptor) (cfg : Config) (m : Message) : Option Bool :=
  if D.owned then
    match hasLifetime D cfg [] m.index with
    | none => none
    | some true => some true
    | some false => some (m.allFields.any (·.boxed))
  else some (m.allFields.any (·.boxed))

/-- types.rs 1401-1458, `write_common_uses`. -/
def writeCommonUses (D : FileDescriptor) (cfg : Config) (messages : List Message) : Emit Doc := do
  let vec := if cfg.nostd then ln d!"use alloc::vec::Vec;" else .empty
  let cow :=
    if !cfg.dontUseCow then
      if messages.any (fun m => m.allFields.any fun f => f.typ.hasCow || (f.isPacked && f.typ.isFixedSize)) then
        if cfg.nostd then ln d!"use alloc::borrow::Cow;" else ln d!"use std::borrow::Cow;"
      else .empty
    else if cfg.nostd && messages.any (fun m => m.allFields.any fun f => f.typ.isNonCow) then
      ln d!"use alloc::borrow::ToOwned;"
    else .empty
  let box ← orPanic (if cfg.nostd then anyM (usesBox D cfg) messages else some false)
  let box := if box then Doc.nl ++ ln d!"use alloc::boxed::Box;" else .empty
  let map :=
    if (messages.filter (fun m => !m.imported)).any (fun m => m.allFields.any fun f => f.typ.isMap) then
      if cfg.hashbrown then ln d!"use hashbrown::HashMap;" ++ ln d!"type KVMap<K, V> = HashMap<K, V>;"
      else if cfg.nostd then ln d!"use alloc::collections::BTreeMap;" ++ ln d!"type KVMap<K, V> = BTreeMap<K, V>;"
      else ln d!"use std::collections::HashMap;" ++ ln d!"type KVMap<K, V> = HashMap<K, V>;"
    else .empty
  pure (vec ++ cow ++ box ++ map)

/-- types.rs 1483-1487, 1512-1515. -/
def mustGenerateCustomDefaultConsts (D : FileDescriptor) (cfg : Config) (m : Message) : Bool :=
  m.fields.any fun f => f.mustGenerateCustomDefaultConst D cfg

/-- types.rs 1489-1494. -/
def mustGenerateGetters (D : FileDescriptor) (cfg : Config) (m : Message) : Bool :=
  m.fields.any (fun f => f.mustGenerateGetter D cfg) && cfg.generateGetters

/-- Text that is written only sometimes. -/
def _root_.QP.Pbrs.emitIf (b : Bool) (d : Emit Doc) : Emit Doc := if b then d else pure .empty

mutual
/-- types.rs 1502-1577, `write`. -/
def write (D : FileDescriptor) (cfg : Config) : Message → Emit Doc
  | ⟨name, fields, oneofs, nums, names, imported, pkg, messages, enums, module, index⟩ => do
    let m : Message := ⟨name, fields, oneofs, nums, names, imported, pkg, messages, enums, module, index⟩
    let definition ← m.writeDefinition D cfg
    let consts ← emitIf (m.mustGenerateCustomDefaultConsts D cfg) do
      let d ← m.writeDefaultConsts D cfg
      pure (d ++ Doc.nl)
    let getters ← emitIf (m.mustGenerateGetters D cfg) do
      let d ← m.writeGetters D cfg
      pure (d ++ Doc.nl)
    let default ← emitIf (m.mustGenerateImplDefault D cfg) do
      let d ← m.writeImplDefault D cfg
      pure (d ++ Doc.nl)
    let read ← m.writeImplMessageRead D cfg
    let write ← m.writeImplMessageWrite D cfg
    let info ← emitIf cfg.genInfo do
      let d ← m.writeImplMessageInfo D cfg
      pure (d ++ Doc.nl)
    let owned ← emitIf D.owned do
      let l ← orPanic (hasLifetime D cfg [] m.index)
      pure (Doc.nl ++ if l then m.writeImplOwned cfg else m.writeImplTryFrom)
    let inner ← emitIf (!(messages.isEmpty && enums.isEmpty && oneofs.isEmpty)) do
      let uses ← writeCommonUses D cfg messages
      let ms ← writeAll D cfg messages
      let es ← emitAll Enumerator.write enums
      let os ← emitAll (OneOf.write D cfg) oneofs
      pure (Doc.nl ++ ln d!"pub mod mod_{name} \{" ++ Doc.nl ++ uses
        ++ (if !messages.isEmpty || !oneofs.isEmpty then ln d!"use super::*;" else .empty)
        ++ ms ++ es ++ os ++ Doc.nl ++ ln d!"}")
    pure (Doc.nl ++ definition ++ Doc.nl ++ consts ++ getters ++ default ++ read ++ Doc.nl ++ write ++ info ++ owned ++ inner)
/-- types.rs 1559-1561, the nested messages. -/
def writeAll (D : FileDescriptor) (cfg : Config) : List Message → Emit Doc
  | [] => pure .empty
  | m :: ms => do
    let d ← m.write D cfg
    let ds ← writeAll D cfg ms
    pure (d ++ ds)
end

end Message

namespace FileDescriptor

/-- types.rs 3040-3061, `write_headers`. -/
def writeHeaders (cfg : Config) (filename : Str) : Doc :=
  ln d!"// Automatically generated rust module for '{filename}' file" ++ Doc.nl
    ++ ln d!"#![allow(non_snake_case)]" ++ ln d!"#![allow(non_upper_case_globals)]" ++ ln d!"#![allow(non_camel_case_types)]"
    ++ ln d!"#![allow(unused_imports)]" ++ ln d!"#![allow(unknown_lints)]" ++ ln d!"#![allow(clippy::all)]"
    ++ (if cfg.addDeprecatedFields then ln d!"#![allow(deprecated)]" else .empty)
    ++ ln d!"#![cfg_attr(rustfmt, rustfmt_skip)]" ++ Doc.nl

/-- types.rs 3068-3096, `write_uses`. (`custom_includes` is always empty: lib.rs 232.) -/
def writeUses (D : FileDescriptor) (cfg : Config) : Emit Doc :=
  let convert := if D.owned then ln d!"use core::convert::\{TryFrom, TryInto};" else .empty
  if D.messages.all Message.isUnit then
    pure (ln d!"use quick_protobuf::\{BytesReader, Result, MessageInfo, MessageRead, MessageWrite};" ++ convert)
  else do
    let uses ← Message.writeCommonUses D cfg D.messages
    pure (uses
      ++ ln d!"use quick_protobuf::\{MessageInfo, MessageRead, MessageWrite, BytesReader, Writer, WriterBackend, Result, PackedFixed, PackedFixedIntoIter, PackedFixedRefIter};"
      ++ convert ++ ln d!"use quick_protobuf::sizeofs::*;")

/-- types.rs 3098-3112, `write_imports`. -/
def writeImports (D : FileDescriptor) : Doc :=
  d!"use " ++ Doc.concat ((splitDot D.package).map fun _ => d!"super::") ++ ln d!"*;"

/-- types.rs 3119-3132, `write_enums`. -/
def writeEnums (D : FileDescriptor) : Emit Doc :=
  emitAll (fun e => do
    let d ← e.writeImplDefault
    pure (Doc.nl ++ e.writeDefinition ++ Doc.nl ++ d ++ Doc.nl ++ e.writeFromI32 ++ Doc.nl ++ e.writeFromStr))
    (D.enums.filter fun e => !e.imported)

/-- types.rs 3143-3148, `write_messages`. -/
def writeMessages (D : FileDescriptor) (cfg : Config) : Emit Doc :=
  emitAll (fun m => m.write D cfg) (D.messages.filter fun m => !m.imported)

/-- types.rs 3021-3038, `write`; `services` is the number of services of the file, for each of which an empty line is written
(the generator for services writes nothing: lib.rs 231). -/
def write (D : FileDescriptor) (cfg : Config) (filename : Str) (services : Nat) : Emit Doc := do
  let headers := if cfg.headers then writeHeaders cfg filename else .empty
  let uses ← D.writeUses cfg
  let enums ← D.writeEnums
  let messages ← D.writeMessages cfg
  pure (headers ++ Doc.nl ++ uses ++ D.writeImports ++ enums ++ messages
    ++ Doc.concat (List.replicate services Doc.nl) ++ Doc.nl)

/-- types.rs 2604-2606: with `single_module` the package is dropped before printing. -/
def printed (cfg : Config) (D : FileDescriptor) : FileDescriptor := if cfg.singleModule then { D with package := [] } else D

end FileDescriptor

/-- types.rs 777-806: what `sanitize_default` puts before a default that is not a scalar: the text of the type. -/
def typePath (cfg : Config) (D : FileDescriptor) (t : FieldType) : Str :=
  match t.typeText D cfg with
  | .ok d => d.str
  | .error _ => []

end QP.Pbrs
