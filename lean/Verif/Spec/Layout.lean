import Verif.Spec.Modules
import Verif.Spec.Getters
import Verif.Spec.Enums
/-!
# What a generated file consists of

The complete contents of the file that is generated for a descriptor, entry by entry.
-/

namespace QP.Rust
open QP.Pbrs

/-- The derived traits besides `Debug`, `PartialEq` and `Clone`: the custom ones, and `Default`, unless it is written out. `Default` is
joined to the last custom one, see C90. -/
def derived (dflt : Bool) : List Str → List Str
  | [] => if dflt then [c! "Default"] else []
  | [s] => if dflt then [s ++ c! "Default"] else if s = [] then [] else [s]
  | s :: t :: ss => s :: derivedMore dflt t ss
where
  derivedMore (dflt : Bool) (s : Str) : List Str → List Str
    | [] => [if dflt then s ++ c! "Default" else s]
    | t :: ss => s :: derivedMore dflt t ss

/-- `a, b, ` -/
def commas : List Str → Doc
  | [] => .empty
  | s :: ss => d!"{s}, {commas ss}"

/-- The attributes of a struct. -/
def attributes (cfg : Config) (dflt : Bool) : Doc :=
  ln d!"#[allow(clippy::derive_partial_eq_without_eq)]" ++ ln d!"#[derive({commas (derived dflt cfg.customStructDerive)}Debug, PartialEq, Clone)]"
    ++ (match cfg.customRepr with | some repr => ln d!"#[repr({repr})]" | none => .empty)

/-- `impl MessageInfo`. -/
def infoText (name : Str) (l : Bool) (path : Str) : Doc :=
  ln d!"impl{lt l} MessageInfo for {name}{lt l} \{" ++ ln d!"    const PATH : &'static str = \"{path}\";" ++ ln d!"}"

/-- The owned variant of a struct. -/
def ownedText (name : Str) : Doc :=
  d!"
            // IMPORTANT: For any future changes, note that the lifetime parameter
            // of the `proto` field is set to 'static!!!
            //
            // This means that the internals of `proto` should at no point create a
            // mutable reference to something using that lifetime parameter, on pain
            // of UB. This applies even though it may be transmuted to a smaller
            // lifetime later (through `proto()` or `proto_mut()`).
            //
            // At the time of writing, the only possible thing that uses the
            // lifetime parameter is `Cow<'a, T>`, which never does this, so it's
            // not UB.
            //
            #[derive(Debug)]
            struct {name}OwnedInner \{
                buf: Vec<u8>,
                proto: Option<{name}<'static>>,
                _pin: core::marker::PhantomPinned,
            }

            impl {name}OwnedInner \{
                fn new(buf: Vec<u8>) -> Result<core::pin::Pin<Box<Self>>> \{
                    let inner = Self \{
                        buf,
                        proto: None,
                        _pin: core::marker::PhantomPinned,
                    };
                    let mut pinned = Box::pin(inner);

                    let mut reader = BytesReader::from_bytes(&pinned.buf);
                    let proto = {name}::from_reader(&mut reader, &pinned.buf)?;

                    unsafe \{
                        let proto = core::mem::transmute::<_, {name}<'_>>(proto);
                        pinned.as_mut().get_unchecked_mut().proto = Some(proto);
                    }
                    Ok(pinned)
                }
            }

            pub struct {name}Owned \{
                inner: core::pin::Pin<Box<{name}OwnedInner>>,
            }

            #[allow(dead_code)]
            impl {name}Owned \{
                pub fn buf(&self) -> &[u8] \{
                    &self.inner.buf
                }

                pub fn proto<'a>(&'a self) -> &'a {name}<'a> \{
                    let proto = self.inner.proto.as_ref().unwrap();
                    unsafe \{ core::mem::transmute::<&{name}<'static>, &{name}<'a>>(proto) }
                }

                pub fn proto_mut<'a>(&'a mut self) -> &'a mut {name}<'a> \{
                    let inner = self.inner.as_mut();
                    let inner = unsafe \{ inner.get_unchecked_mut() };
                    let proto = inner.proto.as_mut().unwrap();
                    unsafe \{ core::mem::transmute::<_, &mut {name}<'a>>(proto) }
                }
            }

            impl core::fmt::Debug for {name}Owned \{
                fn fmt(&self, f: &mut core::fmt::Formatter<'_>) -> core::fmt::Result \{
                    self.inner.proto.as_ref().unwrap().fmt(f)
                }
            }

            impl TryFrom<Vec<u8>> for {name}Owned \{
                type Error=quick_protobuf::Error;

                fn try_from(buf: Vec<u8>) -> Result<Self> \{
                    Ok(Self \{ inner: {name}OwnedInner::new(buf)? })
                }
            }

            impl TryInto<Vec<u8>> for {name}Owned \{
                type Error=quick_protobuf::Error;

                fn try_into(self) -> Result<Vec<u8>> \{
                    let mut buf = Vec::new();
                    let mut writer = Writer::new(&mut buf);
                    self.inner.proto.as_ref().unwrap().write_message(&mut writer)?;
                    Ok(buf)
                }
            }

            impl From<{name}<'static>> for {name}Owned \{
                fn from(proto: {name}<'static>) -> Self \{
                    Self \{
                        inner: Box::pin({name}OwnedInner \{
                            buf: Vec::new(),
                            proto: Some(proto),
                            _pin: core::marker::PhantomPinned,
                        })
                    }
                }
            }
            "

/-- `impl MessageInfo` of the owned variant. -/
def ownedInfoText (name path : Str) : Doc :=
  d!"
            impl MessageInfo for {name}Owned \{
                const PATH: &'static str = \"{path}\";
            }
            "

/-- `impl TryFrom`, where no owned variant is needed. -/
def tryFromText (name : Str) : Doc :=
  d!"
            impl TryFrom<&[u8]> for {name} \{
                type Error=quick_protobuf::Error;

                fn try_from(buf: &[u8]) -> Result<Self> \{
                    let mut reader = BytesReader::from_bytes(&buf);
                    Ok({name}::from_reader(&mut reader, &buf)?)
                }
            }
            "

/-- Does the struct of a message have a lifetime? -/
def lifetime (D : FileDescriptor) (cfg : Config) (m : Message) : Bool := (structDeclares D cfg m.index).getD false

/-- The struct of a message. -/
def structEntry (D : FileDescriptor) (cfg : Config) (m : Message) (s : StructDef) : Entry :=
  .item [m.name] (attributes cfg s.default.isNone ++
    if m.isUnit then ln d!"pub struct {m.name} \{ }" else structText m.name (lifetime D cfg m) (deprecations cfg m) s.fields)

/-- The implementations of a message. -/
def implEntries (D : FileDescriptor) (cfg : Config) (m : Message) (s : StructDef) (cs : List ConstItem) (gs : List GetterItem) : List Entry :=
  let l := lifetime D cfg m
  (if cs = [] then [] else [Entry.text (implBlock m.name l (cs.map ConstItem.doc) ++ Doc.nl ++ Doc.nl)]) ++
  (if gs = [] ∨ cfg.generateGetters = false then [] else [Entry.text (implBlock m.name l (gs.map GetterItem.doc) ++ Doc.nl ++ Doc.nl)]) ++
  (match s.default with | some es => [Entry.text (defaultText m.name l es ++ Doc.nl)] | none => []) ++
  [Entry.text (if m.isUnit then unitReadText m.name s.read else readText m.name l s.read), Entry.text Doc.nl,
   Entry.text (match s.size, s.write with
     | some b, some w => writeText m.name l b w
     | _, _ => ln d!"impl MessageWrite for {m.name} \{ }")] ++
  (if cfg.genInfo then [Entry.text (infoText m.name l (m.module ++ '.' :: m.name) ++ Doc.nl)] else [])

/-- What is generated with `--owned`. -/
def ownedEntries (D : FileDescriptor) (cfg : Config) (m : Message) : List Entry :=
  if D.owned then
    if hasLifetime D cfg [] m.index = some true then
      [.item [m.name ++ c! "OwnedInner", m.name ++ c! "Owned"] (Doc.nl ++ ownedText m.name)] ++
        if cfg.genInfo then [.text (ownedInfoText m.name (m.module ++ '.' :: m.name))] else []
    else [.text (Doc.nl ++ tryFromText m.name)]
  else []

/-- Everything about a message itself. -/
def ownEntries (D : FileDescriptor) (cfg : Config) (m : Message) : Option (List Entry) :=
  (structDef D cfg m).bind fun s => (constItems D cfg m).bind fun cs => (getterItems D cfg m).map fun gs =>
    [.text Doc.nl, structEntry D cfg m s, .text Doc.nl] ++ implEntries D cfg m s cs gs ++ ownedEntries D cfg m

/-- What is printed for an enum of a descriptor: `default()` is what the descriptor says. -/
def enumOf (e : Enumerator) (first : Str) : EnumItem where
  name := e.name
  variants := e.fields
  default := [first]
  fromI32 := e.fields.map fun f => (f.2, [e.name, f.1])
  fromStr := e.fields.map fun f => (f.1, [e.name, f.1])

/-- An enum. -/
def enumEntry (e : Enumerator) : Option Entry :=
  if e.fields = [] then some (.item [e.name] (Doc.nl ++ (enumOf e []).definition ++ Doc.nl))
  else e.partiallyQualified.head?.map fun first =>
    .item [e.name] (Doc.nl ++ (enumOf e first).definition ++ Doc.nl ++ (enumOf e first).implDefault ++ Doc.nl ++ (enumOf e first).implFromI32 ++
      Doc.nl ++ (enumOf e first).implFromStr)

/-- The enum of a oneof. -/
def oneofEntry (D : FileDescriptor) (cfg : Config) (o : OneOf) : Option Entry :=
  (o.hasLifetime D cfg).bind fun l => (variantTys D cfg o).map fun vs =>
    .item [c! "OneOf" ++ o.name] (Doc.nl ++ oneofText o.name l ((o.shown cfg).map (·.deprecated)) vs ++ Doc.nl ++ oneofDefaultText o.name l)

/-- What a module imports for the messages in it. -/
def commonUses (D : FileDescriptor) (cfg : Config) (ms : List Message) : List Entry :=
  (if cfg.nostd then [.use_ [c! "Vec"] (ln d!"use alloc::vec::Vec;")] else []) ++
  (if cfg.dontUseCow = false ∧ ∃ m ∈ ms, ∃ f ∈ m.allFields, f.typ.hasCow = true ∨ (f.isPacked = true ∧ f.typ.isFixedSize = true) then
    [.use_ [c! "Cow"] (if cfg.nostd then ln d!"use alloc::borrow::Cow;" else ln d!"use std::borrow::Cow;")] else []) ++
  (if cfg.dontUseCow = true ∧ cfg.nostd = true ∧ ∃ m ∈ ms, ∃ f ∈ m.allFields, f.typ.isNonCow = true then
    [.use_ [c! "ToOwned"] (ln d!"use alloc::borrow::ToOwned;")] else []) ++
  (if cfg.nostd = true ∧ ∃ m ∈ ms, (D.owned = true ∧ hasLifetime D cfg [] m.index = some true) ∨ ∃ f ∈ m.allFields, f.boxed = true then
    [.use_ [c! "Box"] (Doc.nl ++ ln d!"use alloc::boxed::Box;")] else []) ++
  (if ∃ m ∈ ms, m.imported = false ∧ ∃ f ∈ m.allFields, f.typ.isMap = true then
    if cfg.hashbrown then [.use_ [c! "HashMap"] (ln d!"use hashbrown::HashMap;"), .item [c! "KVMap"] (ln d!"type KVMap<K, V> = HashMap<K, V>;")]
    else if cfg.nostd then
      [.use_ [c! "BTreeMap"] (ln d!"use alloc::collections::BTreeMap;"), .item [c! "KVMap"] (ln d!"type KVMap<K, V> = BTreeMap<K, V>;")]
    else [.use_ [c! "HashMap"] (ln d!"use std::collections::HashMap;"), .item [c! "KVMap"] (ln d!"type KVMap<K, V> = HashMap<K, V>;")]
   else [])

/-- The module with what is declared in a message: its messages, enums and oneofs. -/
def innerEntries (D : FileDescriptor) (cfg : Config) (m : Message) (ms : List Entry) : Option (List Entry) :=
  (m.enums.mapM enumEntry).bind fun es => (m.oneofs.mapM (oneofEntry D cfg)).map fun os =>
    commonUses D cfg m.messages ++ (if m.messages = [] ∧ m.oneofs = [] then [] else [.supers 1]) ++ ms ++ es ++ os ++ [.text Doc.nl]

mutual
/-- Everything about a message: its own code and, if something is declared in it, a module. -/
def messageEntries (D : FileDescriptor) (cfg : Config) : Message → Option (List Entry)
  | ⟨name, fields, oneofs, nums, names, imported, pkg, messages, enums, module, index⟩ =>
    let m : Message := ⟨name, fields, oneofs, nums, names, imported, pkg, messages, enums, module, index⟩
    (ownEntries D cfg m).bind fun own =>
      if messages.isEmpty && enums.isEmpty && oneofs.isEmpty then some own
      else (messagesEntries D cfg messages).bind fun ms => (innerEntries D cfg m ms).map fun inner =>
        own ++ [.text Doc.nl, .mod_ (c! "mod_" ++ name) inner]
/-- Messages one after another. -/
def messagesEntries (D : FileDescriptor) (cfg : Config) : List Message → Option (List Entry)
  | [] => some []
  | m :: ms => (messageEntries D cfg m).bind fun es => (messagesEntries D cfg ms).map fun ess => es ++ ess
end

/-- The comment and the attributes at the start of the file. -/
def headerText (cfg : Config) (filename : Str) : Doc :=
  ln d!"// Automatically generated rust module for '{filename}' file" ++ Doc.nl
    ++ ln d!"#![allow(non_snake_case)]" ++ ln d!"#![allow(non_upper_case_globals)]" ++ ln d!"#![allow(non_camel_case_types)]"
    ++ ln d!"#![allow(unused_imports)]" ++ ln d!"#![allow(unknown_lints)]" ++ ln d!"#![allow(clippy::all)]"
    ++ (if cfg.addDeprecatedFields then ln d!"#![allow(deprecated)]" else .empty)
    ++ ln d!"#![cfg_attr(rustfmt, rustfmt_skip)]" ++ Doc.nl

/-- What the file imports from the crate `quick_protobuf`, and from `core`. -/
def crateUses (D : FileDescriptor) (cfg : Config) : List Entry :=
  let convert := if D.owned then [Entry.use_ [c! "TryFrom", c! "TryInto"] (ln d!"use core::convert::\{TryFrom, TryInto};")] else []
  if ∀ m ∈ D.messages, m.isUnit = true then
    .use_ [c! "BytesReader", c! "Result", c! "MessageInfo", c! "MessageRead", c! "MessageWrite"]
      (ln d!"use quick_protobuf::\{BytesReader, Result, MessageInfo, MessageRead, MessageWrite};") :: convert
  else
    commonUses D cfg D.messages ++
    [.use_ [c! "MessageInfo", c! "MessageRead", c! "MessageWrite", c! "BytesReader", c! "Writer", c! "WriterBackend", c! "Result",
        c! "PackedFixed", c! "PackedFixedIntoIter", c! "PackedFixedRefIter"]
      (ln d!"use quick_protobuf::\{MessageInfo, MessageRead, MessageWrite, BytesReader, Writer, WriterBackend, Result, PackedFixed, PackedFixedIntoIter, PackedFixedRefIter};")] ++
    convert ++ [.text (ln d!"use quick_protobuf::sizeofs::*;")]

/-- Everything in the file: the enums and messages that are declared in it, not the imported ones. -/
def fileEntries (D : FileDescriptor) (cfg : Config) (filename : Str) (services : Nat) : Option (List Entry) :=
  ((D.enums.filter fun e => !e.imported).mapM enumEntry).bind fun es =>
    (messagesEntries D cfg (D.messages.filter fun m => !m.imported)).map fun ms =>
      (if cfg.headers then [.text (headerText cfg filename)] else []) ++ [.text Doc.nl] ++ crateUses D cfg ++
        [.supers (splitDot D.package).length] ++ es ++ ms ++ List.replicate services (.text Doc.nl) ++ [.text Doc.nl]

end QP.Rust
