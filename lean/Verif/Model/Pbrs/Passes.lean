import Verif.Model.Pbrs.Resolve
import Verif.Model.Pbrs.Cycles
/-!
# The passes of `write_proto` after parsing (`pb-rs/src/types.rs` 1331-1357, 1958-2062, 2588-2605, 2697-2702, 2771-2800)
-/

namespace QP.Pbrs

/-- Why `write_proto` gives up (the errors of errors.rs that the modelled passes return, and panics). -/
inductive CompileError where
  /-- `Error::EmptyRead` -/
  | emptyRead
  /-- `Error::MessageOrEnumNotFound` -/
  | notFound (name : Str)
  /-- `Error::Cycle` -/
  | cycle (names : List Str)
  /-- `Error::InvalidMessage`: the name of the message -/
  | invalidMessage (message : Str)
  /-- `Error::InvalidDefaultEnum`: the names of the message and of the field -/
  | invalidDefaultEnum (message field : Str)
  /-- a panic -/
  | panic

/-- types.rs 1960-1969, the test of `Message::sanity_checks` for reserved names and numbers. -/
def Message.isReserved (m : Message) (f : Field) : Bool :=
  (match m.reservedNames with | some names => names.contains f.name | none => false)
    || (match m.reservedNums with | some nums => nums.contains f.number | none => false)

/-- types.rs 1958-1990, `Message::sanity_checks`, the loop body. -/
def Field.sanityCheck (D : FileDescriptor) (m : Message) (f : Field) : Except CompileError Unit :=
  if m.isReserved f then
    .error (.invalidMessage m.name)
  else
    match f.default, f.typ with
    | some var, .enum e =>
      match D.getEnum e with
      | none => .error .panic
      | some en => if en.fields.any (fun p => p.1 == var) then .ok () else .error (.invalidDefaultEnum m.name f.name)
    | _, _ => .ok ()

/-- A loop whose body may return an error. -/
def checkAll {α : Type} (check : α → Except CompileError Unit) : List α → Except CompileError Unit
  | [] => .ok ()
  | a :: as =>
    match check a with
    | .error e => .error e
    | .ok _ => checkAll check as

/-- types.rs 1958-1990, `Message::sanity_checks`. -/
def Message.sanityChecks (D : FileDescriptor) (m : Message) : Except CompileError Unit :=
  checkAll (Field.sanityCheck D m) m.allFields

/-- types.rs 2697-2702, `FileDescriptor::sanity_checks`: the messages of the file, not the nested ones. -/
def FileDescriptor.sanityChecks (D : FileDescriptor) : Except CompileError Unit :=
  checkAll (Message.sanityChecks D) D.messages

/-- types.rs 1332-1352, `convert_field_types` on the type of one field: both loops. -/
def FieldType.convert (t from_ to : FieldType) : FieldType :=
  let t := if t = from_ then to else t
  match t with
  | .map k v => .map (if k = from_ then to else k) (if v = from_ then to else v)
  | t => t

mutual
/-- A loop over all fields of a message and, recursively, of its nested messages, replacing each field `f` by `h f`. -/
def Message.mapDeep (h : Field → Field) : Message → Message
  | ⟨name, fields, oneofs, nums, names, imported, pkg, messages, enums, module, index⟩ =>
    ⟨name, fields.map h, oneofs.map (fun o => { o with fields := o.fields.map h }), nums, names, imported, pkg,
      Message.mapDeepAll h messages, enums, module, index⟩
/-- The nested messages. -/
def Message.mapDeepAll (h : Field → Field) : List Message → List Message
  | [] => []
  | m :: ms => m.mapDeep h :: Message.mapDeepAll h ms
end

/-- types.rs 1331-1357 and 2660-2665, `convert_field_types`. -/
def FileDescriptor.convertFieldTypes (from_ to : FieldType) (D : FileDescriptor) : FileDescriptor :=
  { D with messages := Message.mapDeepAll (fun f => { f with typ := f.typ.convert from_ to }) D.messages }

/-- types.rs 2021-2027, `set_repeated_as_packed`, one field. -/
def Field.repeatedAsPacked (f : Field) : Field :=
  if f.packed.isNone && f.frequency.isRepeated then { f with packed := some true } else f

/-- types.rs 2029-2035, `unset_packed_non_primitives`, one field. -/
def Field.unsetPackedNonPrimitive (f : Field) : Field :=
  if !f.typ.isPrimitive && f.packed.isSome then { f with packed := none } else f

/-- ASCII lower case of a character (`to_lowercase`, which only matters here when the result is `inf`, `-inf` or `nan`). -/
def lower (c : Char) : Char := if 'A' ≤ c ∧ c ≤ 'Z' then Char.ofNat (c.toNat + 32) else c

/-- types.rs 777-806, `Field::sanitize_default`: the new text of the default; `none` is the `unwrap` panic on a `bool`.
`path` is the text of the type of an enum, a message or a map. -/
def sanitizeText (path : FieldType → Str) (t : FieldType) (d : Str) : Option Str :=
  match t with
  | .uint32 | .fixed32 => some (d ++ "u32".toList)
  | .uint64 | .fixed64 => some (d ++ "u64".toList)
  | .int32 | .sint32 | .sfixed32 => some (d ++ "i32".toList)
  | .int64 | .sint64 | .sfixed64 => some (d ++ "i64".toList)
  | .float =>
    if d.map lower = "inf".toList then some "::core::f32::INFINITY".toList
    else if d.map lower = "-inf".toList then some "::core::f32::NEG_INFINITY".toList
    else if d.map lower = "nan".toList then some "::core::f32::NAN".toList
    else some (d ++ "f32".toList)
  | .double =>
    if d.map lower = "inf".toList then some "::core::f64::INFINITY".toList
    else if d.map lower = "-inf".toList then some "::core::f64::NEG_INFINITY".toList
    else if d.map lower = "nan".toList then some "::core::f64::NAN".toList
    else some (d ++ "f64".toList)
  | .stringCow => some ("Cow::Borrowed(\"".toList ++ d ++ "\")".toList)
  | .bytesCow => some ("Cow::Borrowed(b\"".toList ++ d ++ "\")".toList)
  | .string_ => some ("\"".toList ++ d ++ "\"".toList)
  | .bytes_ => some ("b\"".toList ++ d ++ "\"".toList)
  | .bool => if d = "true".toList then some d else if d = "false".toList then some d else none
  | .enum e => some (path (.enum e) ++ "::".toList ++ d)
  | .message m => some (path (.message m) ++ "::".toList ++ d)
  | .map k v => some (path (.map k v) ++ "::".toList ++ d)
  | .messageOrEnum _ => none

/-- types.rs 777-806, `Field::sanitize_default`; a panic leaves `none`. -/
def Field.sanitizeDefault (path : FieldType → Str) (f : Field) : Option Field :=
  match f.default with
  | none => some f
  | some d => (sanitizeText path f.typ d).map fun d' => { f with default := some d' }

/-- A loop that may panic, with its results. -/
def mapM? {α β : Type} (g : α → Option β) : List α → Option (List β)
  | [] => some []
  | a :: as =>
    match g a, mapM? g as with
    | some b, some bs => some (b :: bs)
    | _, _ => none

/-- types.rs 2038-2040, the fields of a oneof. -/
def OneOf.sanitizeDefaults (path : FieldType → Str) (o : OneOf) : Option OneOf :=
  (mapM? (Field.sanitizeDefault path) o.fields).map fun fs => { o with fields := fs }

mutual
/-- types.rs 2037-2045, `Message::sanitize_defaults`. -/
def Message.sanitizeDefaults (path : FieldType → Str) : Message → Option Message
  | ⟨name, fields, oneofs, nums, names, imported, pkg, messages, enums, module, index⟩ =>
    match mapM? (Field.sanitizeDefault path) fields, mapM? (OneOf.sanitizeDefaults path) oneofs,
        Message.sanitizeDefaultsAll path messages with
    | some fields, some oneofs, some messages =>
      some ⟨name, fields, oneofs, nums, names, imported, pkg, messages, enums, module, index⟩
    | _, _, _ => none
/-- types.rs 2041-2043, the nested messages. -/
def Message.sanitizeDefaultsAll (path : FieldType → Str) : List Message → Option (List Message)
  | [] => some []
  | m :: ms =>
    match m.sanitizeDefaults path, Message.sanitizeDefaultsAll path ms with
    | some m, some ms => some (m :: ms)
    | _, _ => none
end

/-- types.rs 2771-2790, `set_defaults`; `none` is a panic. The two packing loops are over the messages of the file only. -/
def FileDescriptor.setDefaults (path : FieldType → Str) (D : FileDescriptor) : Option FileDescriptor :=
  let messages := if D.syntax_ = .proto3 then D.messages.map (Message.mapAllFields Field.repeatedAsPacked) else D.messages
  match Message.sanitizeDefaultsAll path messages with
  | none => none
  | some messages => some { D with messages := messages.map (Message.mapAllFields Field.unsetPackedNonPrimitive) }

/-- types.rs 2155-2161, `Enumerator::sanitize_names`. -/
def Enumerator.sanitizeNames (e : Enumerator) : Enumerator :=
  { e with name := sanitizeKeyword e.name, package := sanitizeKeyword e.package,
           fields := e.fields.map (fun p => (sanitizeKeyword p.1, p.2)) }

/-- types.rs 2268-2274, `OneOf::sanitize_names`. -/
def OneOf.sanitizeNames (o : OneOf) : OneOf :=
  { o with name := sanitizeKeyword o.name, package := sanitizeKeyword o.package,
           fields := o.fields.map (fun f => { f with name := sanitizeKeyword f.name }) }

mutual
/-- types.rs 2047-2062, `Message::sanitize_names`. -/
def Message.sanitizeNames : Message → Message
  | ⟨name, fields, oneofs, nums, names, imported, pkg, messages, enums, module, index⟩ =>
    ⟨sanitizeKeyword name, fields.map (fun f => { f with name := sanitizeKeyword f.name }),
      oneofs.map OneOf.sanitizeNames, nums, names, imported, sanitizeKeyword pkg, Message.sanitizeNamesAll messages,
      enums.map Enumerator.sanitizeNames, module, index⟩
/-- types.rs 2053-2055, the nested messages. -/
def Message.sanitizeNamesAll : List Message → List Message
  | [] => []
  | m :: ms => m.sanitizeNames :: Message.sanitizeNamesAll ms
end

/-- types.rs 2792-2799, `FileDescriptor::sanitize_names`. -/
def FileDescriptor.sanitizeNames (D : FileDescriptor) : FileDescriptor :=
  { D with messages := Message.sanitizeNamesAll D.messages, enums := D.enums.map Enumerator.sanitizeNames }

/-- types.rs 2581-2602, `write_proto` from the parsed descriptor (packages set) to the descriptor that is printed. -/
def FileDescriptor.compile (path : FileDescriptor → FieldType → Str) (cfg : Config) (D : FileDescriptor) :
    Except CompileError FileDescriptor :=
  if D.messages.isEmpty && D.enums.isEmpty then .error .emptyRead
  else match D.resolveTypes with
    | .error n => .error (.notFound n)
    | .ok D =>
      match D.breakCycles cfg.errorCycle with
      | none => .error .panic
      | some (.error ns) => .error (.cycle ns)
      | some (.ok D) =>
        match D.sanityChecks with
        | .error e => .error e
        | .ok _ =>
          let D := if cfg.dontUseCow then
              (D.convertFieldTypes .stringCow .string_).convertFieldTypes .bytesCow .bytes_
            else D
          match D.setDefaults (path D) with
          | none => .error .panic
          | some D => .ok D.sanitizeNames

end QP.Pbrs
