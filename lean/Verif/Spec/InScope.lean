import Verif.Spec.Paths
/-!
# Which names generated code uses, and which are in scope

The names of the standard library and of the crate `quick_protobuf` that occur in generated code, the lines that import them, and what
it means that a name can be used in a module.
-/

namespace QP.Rust
open QP.Pbrs

/-! ## Names that are used -/

/-- The library's names in a type. -/
def Ty.needs : Ty → List Str
  | cowStr | cowBytes => [c! "Cow"]
  | string => [c! "String"]
  | vecU8 => [c! "Vec"]
  | option t => c! "Option" :: t.needs
  | box t => c! "Box" :: t.needs
  | vec t => c! "Vec" :: t.needs
  | packed t => c! "PackedFixed" :: t.needs
  | kvmap k v => c! "KVMap" :: (k.needs ++ v.needs)
  | ref t => t.needs
  | _ => []

/-- The library's names in the name of a function. -/
def Fn.needs : Fn → List Str
  | some => [c! "Some"]
  | ok => [c! "Ok"]
  | err => [c! "Err"]
  | boxNew => [c! "Box"]
  | cowBorrowed => [c! "Cow"]
  | sizeofVarint => [c! "sizeof_varint"]
  | sizeofSint32 => [c! "sizeof_sint32"]
  | sizeofSint64 => [c! "sizeof_sint64"]
  | sizeofLen => [c! "sizeof_len"]
  | vecNew | vecU8New => [c! "Vec"]
  | hashMapNew => [c! "HashMap"]
  | packedFrom => [c! "PackedFixed", c! "From"]
  | selfDefault | default _ => [c! "Default"]
  | variant _ _ => []

/-- The trait a method belongs to, if it is one of a trait: it has to be in scope. -/
def Meth.needs : Meth → List Str
  | toOwned => [c! "ToOwned"]
  | toString_ => [c! "ToString"]
  | getSize => [c! "MessageWrite"]
  | _ => []

/-- The library's names in a pattern. -/
def Pat.needs : Pat → List Str
  | ok a => c! "Ok" :: a.needs
  | err a => c! "Err" :: a.needs
  | pair a b => a.needs ++ b.needs
  | variant _ _ a => a.needs
  | _ => []

mutual
/-- The library's names in an expression. An expression copied from the schema has those of its type. -/
def Expr.needs : Expr → List Str
  | .verbatim t _ => t.needs
  | .fnName f => f.needs
  | .none_ _ => [c! "None"]
  | .paren e | .ref e | .deref e | .not e | .field e _ | .try_ e => e.needs
  | .cast e t => e.needs ++ t.needs
  | .bin _ _ a b => a.needs ++ b.needs
  | .mcall e m tf _ as => e.needs ++ m.needs ++ (match tf with | some t => t.needs | none => []) ++ as.needs
  | .call f _ as => f.needs ++ as.needs
  | .closure ps b => ps.flatMap Pat.needs ++ b.needs
  | .ite c a b => c.needs ++ a.needs ++ b.needs
  | .match_ e as => e.needs ++ as.needs
  | .var _ | .num _ | .typed _ _ | .false_ | .emptyStr | .emptyBytes | .unit | .variantNone _ => []
/-- In arguments. -/
def Exprs.needs : Exprs → List Str
  | .nil => []
  | .cons e es => e.needs ++ es.needs
/-- In the arms of a `match`. -/
def Arms.needs : Arms → List Str
  | .nil => []
  | .cons p e as => p.needs ++ e.needs ++ as.needs
end

/-- In simple statements. -/
def Simple.needs : Simple → List Str
  | .expr e | .assign _ _ e | .push _ _ e => e.needs
  | .returnErr e => c! "Err" :: e.needs

/-- In the body of an arm. -/
def ArmBody.needs : ArmBody → List Str
  | .simple s => s.needs
  | .block e | .value e | .insert e _ _ => e.needs
  | .empty => []

/-- In a statement. -/
def Stmt.needs : Stmt → List Str
  | .letMut _ e | .expr e => e.needs
  | .ifThen c e => c.needs ++ e.needs
  | .for_ p e b => p.needs ++ e.needs ++ b.needs
  | .match_ e as => e.needs ++ as.flatMap fun a => a.1.needs ++ a.2.needs
  | .whileMatch c e as => c.needs ++ e.needs ++ as.flatMap fun a => a.1.needs ++ a.2.needs

/-- In the body of a function. -/
def Body.needs (b : Body) : List Str := b.stmts.flatMap Stmt.needs ++ b.value.needs

/-- In everything that is generated for a message itself: the struct `s`, its constants and getters, and with `owned` (which owned
variant: `inner`) and `genInfo` what these add. The names of the traits that are derived for the struct are not among them. -/
def itemUses (s : StructDef) (cs : List ConstItem) (gs : List GetterItem) (genInfo owned inner : Bool) : List Str :=
  s.fields.flatMap (·.2.needs) ++ cs.flatMap (·.ty.needs) ++ gs.flatMap (·.ret.needs) ++
  (match s.default with | some es => c! "Default" :: es.flatMap (·.2.needs) | none => []) ++
  c! "MessageRead" :: c! "BytesReader" :: c! "Result" :: s.read.needs ++
  c! "MessageWrite" :: (match s.size with | some b => b.needs | none => []) ++
  (match s.write with | some b => c! "WriterBackend" :: c! "Writer" :: c! "Result" :: b.needs | none => []) ++
  (if genInfo then [c! "MessageInfo"] else []) ++
  if owned then
    if inner then [c! "Vec", c! "Option", c! "Some", c! "None", c! "Ok", c! "Result", c! "Box", c! "BytesReader", c! "TryFrom", c! "TryInto",
      c! "Writer", c! "From", c! "MessageRead", c! "MessageWrite"]
    else [c! "TryFrom", c! "Result", c! "Ok", c! "BytesReader", c! "MessageRead"]
  else []

/-! ## Names that are in scope -/

/-- The names that are in scope everywhere: those of the prelude of `core`, or of `std`. -/
def prelude (nostd : Bool) : List Str :=
  [c! "Option", c! "Some", c! "None", c! "Ok", c! "Err", c! "Default", c! "From"] ++
    if nostd then [] else [c! "Vec", c! "Box", c! "String", c! "ToOwned", c! "ToString"]

/-- Lines, and the names they bring into the module they are in. -/
def library : List (List Str × Doc) :=
  [([c! "Vec"], ln d!"use alloc::vec::Vec;"),
   ([c! "Cow"], ln d!"use std::borrow::Cow;"),
   ([c! "Cow"], ln d!"use alloc::borrow::Cow;"),
   ([c! "ToOwned"], ln d!"use alloc::borrow::ToOwned;"),
   ([c! "Box"], Doc.nl ++ ln d!"use alloc::boxed::Box;"),
   ([c! "HashMap"], ln d!"use hashbrown::HashMap;"),
   ([c! "HashMap"], ln d!"use std::collections::HashMap;"),
   ([c! "BTreeMap"], ln d!"use alloc::collections::BTreeMap;"),
   ([c! "KVMap"], ln d!"type KVMap<K, V> = HashMap<K, V>;"),
   ([c! "KVMap"], ln d!"type KVMap<K, V> = BTreeMap<K, V>;"),
   ([c! "BytesReader", c! "Result", c! "MessageInfo", c! "MessageRead", c! "MessageWrite"],
     ln d!"use quick_protobuf::\{BytesReader, Result, MessageInfo, MessageRead, MessageWrite};"),
   ([c! "MessageInfo", c! "MessageRead", c! "MessageWrite", c! "BytesReader", c! "Writer", c! "WriterBackend", c! "Result",
       c! "PackedFixed", c! "PackedFixedIntoIter", c! "PackedFixedRefIter"],
     ln d!"use quick_protobuf::\{MessageInfo, MessageRead, MessageWrite, BytesReader, Writer, WriterBackend, Result, PackedFixed, PackedFixedIntoIter, PackedFixedRefIter};"),
   ([c! "TryFrom", c! "TryInto"], ln d!"use core::convert::\{TryFrom, TryInto};"),
   ([c! "sizeof_len", c! "sizeof_varint", c! "sizeof_sint32", c! "sizeof_sint64"], ln d!"use quick_protobuf::sizeofs::*;")]

/-- The entry is a line that brings in `x`. -/
def Brings (x : Str) (e : Entry) : Prop := ∃ l ∈ library, x ∈ l.1 ∧ e.doc = l.2

/-- In module `q` of the file, `x` is what the library calls `x`: a line of the module brings it in, and nothing else in it is called
`x`; or nothing in the module is called `x`, and through `use super::*` it is in scope because it is in the module around this one. -/
inductive InScope (file : List Entry) : Path → Str → Prop
  | here {q es x e} : inside file q = some es → e ∈ es → Brings x e → (∀ e' ∈ es, x ∈ e'.declares ++ e'.imports → Brings x e') →
      InScope file q x
  | outer {q es x} : inside file q = some es → x ∉ names es → q ≠ [] → globs es = [1] → InScope file q.dropLast x → InScope file q x

/-- No type of the schema is called like something the library has: the only declaration with such a name is the alias `KVMap`. -/
def NoNameClash (file : List Entry) : Prop :=
  ∀ p es, inside file p = some es → ∀ e ∈ es, ∀ x ∈ e.declares, (∃ l ∈ library, x ∈ l.1) → Brings x e

/-- The conversion of texts that `dont_use_cow` makes has been made: with it no type is a `Cow`, without it every text is one. -/
def Converted (cfg : Config) : FieldType → Prop
  | .stringCow | .bytesCow => cfg.dontUseCow = false
  | .string_ | .bytes_ => cfg.dontUseCow = true
  | .map k v => Converted cfg k ∧ Converted cfg v
  | _ => True

end QP.Rust
