import Verif.Model.Pbrs.Scc
/-!
# Lifetime parameters (`pb-rs/src/types.rs` 354-410, 812-837, 1360-1376, 1613-1630, 2255-2261, 2288-2320)

The printed Rust types are trees. `none` is a panic (`get_message` of a position where there is no message) or, in
`hasLifetime`, an exhausted bound on the depth of the recursion (`C51_terminates`: it never is).
-/

namespace QP.Pbrs

/-- `Iterator::any` with a test that may fail to return. -/
def anyM {α : Type} (p : α → Option Bool) : List α → Option Bool
  | [] => some false
  | a :: as =>
    match p a with
    | none => none
    | some true => some true
    | some false => anyM p as

/-- types.rs 354-378, `FieldType::has_lifetime`; `rec` is `Message::has_lifetime`. -/
def FieldType.hasLifetime (rec : MessageIndex → Option Bool) (packed : Bool) : FieldType → Option Bool
  | .stringCow | .bytesCow => some true
  | .message m => rec m
  | .fixed64 | .sfixed64 | .double | .fixed32 | .sfixed32 | .string_ | .bytes_ | .float => some packed
  | .map k v =>
    match FieldType.hasLifetime rec false k with
    | none => none
    | some true => some true
    | some false => FieldType.hasLifetime rec false v
  | _ => some false

/-- types.rs 1360-1376, `Message::has_lifetime`, on the message at `i`, with a bound on the depth of the recursion. -/
def hasLifetimeN (D : FileDescriptor) (cfg : Config) : Nat → List MessageIndex → MessageIndex → Option Bool
  | 0, _, _ => none
  | n + 1, ignore, i =>
    match D.getMessage i with
    | none => none
    | some m =>
      if m.index ∈ ignore then some false
      else anyM (fun f => ((f.typ.hasLifetime (hasLifetimeN D cfg n (ignore ++ [m.index])) f.isPacked).map (· && f.visible cfg)))
        m.allFields

/-- `has_lifetime` of the message at `i`; the bound is the number of messages of the file, plus one. -/
def hasLifetime (D : FileDescriptor) (cfg : Config) (ignore : List MessageIndex) (i : MessageIndex) : Option Bool :=
  hasLifetimeN D cfg (Message.countAll D.messages + 1) ignore i

/-- types.rs 2255-2261, `OneOf::has_lifetime`. -/
def OneOf.hasLifetime (D : FileDescriptor) (cfg : Config) (o : OneOf) : Option Bool :=
  anyM (fun f => (f.typ.hasLifetime (Pbrs.hasLifetime D cfg []) f.isPacked).map (· && f.visible cfg)) o.fields

/-- A printed Rust type: a type without parameters, `Cow<'a, ..>`, a struct with or without `<'a>`, and type constructors. -/
inductive RustType where
  | plain (name : Str)
  | cow (name : Str)
  | struct_ (m : MessageIndex) (lifetime : Bool)
  | kvMap (k v : RustType)
  | option (t : RustType)
  | box (t : RustType)
  | vec (t : RustType)
  | packedFixed (t : RustType)

/-- The text contains `'a`. -/
def RustType.mentions : RustType → Bool
  | plain _ => false
  | cow _ => true
  | struct_ _ l => l
  | kvMap k v => k.mentions || v.mentions
  | option t | box t | vec t => t.mentions
  | packedFixed _ => true

/-- types.rs 380-415, `FieldType::rust_type`; enum names are dropped, an unresolved name is a panic. -/
def FieldType.rustType (D : FileDescriptor) (cfg : Config) : FieldType → Option RustType
  | .int32 | .sint32 | .sfixed32 => some (.plain "i32".toList)
  | .int64 | .sint64 | .sfixed64 => some (.plain "i64".toList)
  | .uint32 | .fixed32 => some (.plain "u32".toList)
  | .uint64 | .fixed64 => some (.plain "u64".toList)
  | .double => some (.plain "f64".toList)
  | .float => some (.plain "f32".toList)
  | .stringCow => some (.cow "str".toList)
  | .bytesCow => some (.cow "[u8]".toList)
  | .string_ => some (.plain "String".toList)
  | .bytes_ => some (.plain "Vec<u8>".toList)
  | .bool => some (.plain "bool".toList)
  | .enum _ => some (.plain "enum".toList)
  | .message m => (Pbrs.hasLifetime D cfg [] m).map (.struct_ m)
  | .map k v =>
    match k.rustType D cfg, v.rustType D cfg with
    | some k', some v' => some (.kvMap k' v')
    | _, _ => none
  | .messageOrEnum _ => none

/-- types.rs 812-837, `Field::get_type`. -/
def Field.getType (D : FileDescriptor) (cfg : Config) (f : Field) : Option RustType :=
  (f.typ.rustType D cfg).map fun t =>
    if f.boxed then .option (.box t)
    else match f.frequency.generated with
      | .singular => if f.frequency.isOptional then .option t else t
      | .arrayLike => if f.isPacked && f.typ.isFixedSize && !cfg.dontUseCow then .packedFixed t else .vec t
      | .map => t

/-- types.rs 1613-1620 (also 1309, 1467, 1647, 1676, 1713, 1765): does the struct of the message at `i` get `<'a>`? -/
def structDeclares (D : FileDescriptor) (cfg : Config) (i : MessageIndex) : Option Bool :=
  hasLifetime D cfg (if cfg.dontUseCow then [i] else []) i

/-- types.rs 2303-2320: the type of a variant of a oneof. -/
def Field.variantType (D : FileDescriptor) (cfg : Config) (f : Field) : Option RustType :=
  (f.typ.rustType D cfg).map fun t => if f.boxed then .box t else t

/-- types.rs 1621-1627, 838-852, 2373-2395: does the text of some member of the struct contain `'a`? -/
def memberMentions (D : FileDescriptor) (cfg : Config) (m : Message) : Option Bool :=
  match anyM (fun f => if f.visible cfg then (f.getType D cfg).map RustType.mentions else some false) m.fields with
  | none => none
  | some true => some true
  | some false => anyM (OneOf.hasLifetime D cfg) m.oneofs

/-- types.rs 2303-2320: does the text of some variant of the enum of a oneof contain `'a`? -/
def variantMentions (D : FileDescriptor) (cfg : Config) (o : OneOf) : Option Bool :=
  anyM (fun f => if f.visible cfg then (f.variantType D cfg).map RustType.mentions else some false) o.fields

end QP.Pbrs
