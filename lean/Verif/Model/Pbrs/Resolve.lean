import Verif.Model.Pbrs.Names
/-!
# `set_package`, `get_full_names`, `resolve_types` (`pb-rs/src/types.rs` 1992-2019, 2897-3010)

The two `HashMap`s of full names are lists of entries in insertion order; `entry(k).or_insert(v)` keeps the first value,
so a lookup takes the first entry with the key.
-/

namespace QP.Pbrs

/-- `format!("{}.{}", a, b)`. -/
def dotted (a b : Str) : Str := a ++ '.' :: b

/-- `str::replace('.', "::")`. -/
def colons (s : Str) : Str := s.flatMap fun c => if c = '.' then [':', ':'] else [c]

/-- types.rs 2132-2152, `Enumerator::set_package`. -/
def Enumerator.setPackage (package module : Str) (e : Enumerator) : Enumerator :=
  let part := e.fields.map fun f => e.name ++ ':' :: ':' :: f.1
  { e with package := package, module := module, partiallyQualified := part,
           fullyQualified := part.map fun p => if module.isEmpty then p else colons module ++ ':' :: ':' :: p }

mutual
/-- types.rs 1992-2019, `Message::set_package`. -/
def Message.setPackage (package module : Str) : Message → Message
  | ⟨name, fields, oneofs, nums, names, imported, pkg, messages, enums, _, index⟩ =>
    let childPackage := if package.isEmpty then name else dotted package name
    let childModule := module ++ ".mod_".toList ++ name
    ⟨name, fields, oneofs.map (fun o => { o with package := childPackage, module := childModule }), nums, names, imported,
      if package.isEmpty then pkg else package, Message.setPackageAll childPackage childModule messages,
      enums.map (Enumerator.setPackage childPackage childModule), module, index⟩
/-- types.rs 2010-2012. -/
def Message.setPackageAll (package module : Str) : List Message → List Message
  | [] => []
  | m :: ms => m.setPackage package module :: Message.setPackageAll package module ms
end

/-- types.rs 2705-2710, the start of `fetch_imports`. -/
def FileDescriptor.setPackages (D : FileDescriptor) : FileDescriptor :=
  { D with messages := Message.setPackageAll D.package D.module D.messages,
           enums := D.enums.map (Enumerator.setPackage D.package D.module) }

/-- types.rs 2904-2912, the key of a message. -/
def Message.fullName (m : Message) : Str := if m.package.isEmpty then m.name else dotted m.package m.name

/-- types.rs 2938-2952, the key of an enum of the file. -/
def Enumerator.fullName (e : Enumerator) : Str := if e.package.isEmpty then e.name else dotted e.package e.name

/-- types.rs 2919-2921, the key of an enum of a message. -/
def Enumerator.nestedName (e : Enumerator) : Str := dotted e.package e.name

/-- types.rs 2913-2922: the entries of the enums of the message at `index`. -/
def enumEntries (index : MessageIndex) (enums : List Enumerator) : List (Str × EnumIndex) :=
  enums.zipIdx.map fun (e, i) => (e.nestedName, ⟨index, i⟩)

mutual
/-- types.rs 2897-2928, the order in which `rec_full_names` visits messages: a message at `index`, then its nested ones. -/
def Message.preorder (index : MessageIndex) : Message → List (MessageIndex × Message)
  | ⟨name, fields, oneofs, nums, names, imported, pkg, messages, enums, module, idx⟩ =>
    (index, ⟨name, fields, oneofs, nums, names, imported, pkg, messages, enums, module, idx⟩) ::
      Message.preorderAll index 0 messages
/-- types.rs 2923-2927, the nested messages, from number `i` on. -/
def Message.preorderAll (index : MessageIndex) (i : Nat) : List Message → List (MessageIndex × Message)
  | [] => []
  | m :: ms => m.preorder (index ++ [i]) ++ Message.preorderAll index (i + 1) ms
end

mutual
/-- types.rs 2904, 2917: `m.index = index.clone()`, `e.index = index.clone()`. -/
def Message.setIndexes (index : MessageIndex) : Message → Message
  | ⟨name, fields, oneofs, nums, names, imported, pkg, messages, enums, module, _⟩ =>
    ⟨name, fields, oneofs, nums, names, imported, pkg, Message.setIndexesAll index 0 messages,
      enums.zipIdx.map (fun (e, i) => { e with index := ⟨index, i⟩ }), module, index⟩
/-- types.rs 2923-2927, the nested messages, from number `i` on. -/
def Message.setIndexesAll (index : MessageIndex) (i : Nat) : List Message → List Message
  | [] => []
  | m :: ms => m.setIndexes (index ++ [i]) :: Message.setIndexesAll index (i + 1) ms
end

/-- The two maps `get_full_names` returns. -/
structure FullNames where
  msgs : List (Str × MessageIndex)
  enums : List (Str × EnumIndex)

/-- types.rs 2896-2955, `get_full_names`, the maps. -/
def FileDescriptor.fullNames (D : FileDescriptor) : FullNames where
  msgs := (Message.preorderAll [] 0 D.messages).map (fun (i, m) => (m.fullName, i))
  enums := (Message.preorderAll [] 0 D.messages).flatMap (fun (i, m) => enumEntries i m.enums) ++ D.enums.zipIdx.map (fun (e, i) => (e.fullName, ⟨[], i⟩))

/-- types.rs 2896-2955, `get_full_names`, the effect on `self`. -/
def FileDescriptor.setIndexes (D : FileDescriptor) : FileDescriptor :=
  { D with messages := Message.setIndexesAll [] 0 D.messages,
           enums := D.enums.zipIdx.map (fun (e, i) => { e with index := ⟨[], i⟩ }) }

/-- types.rs 2991, `package.match_indices('.')`, the parts before the dots, shortest first. -/
def dotPrefixes : Str → List Str
  | [] => []
  | c :: cs => if c = '.' then [] :: (dotPrefixes cs).map (c :: ·) else (dotPrefixes cs).map (c :: ·)

/-- types.rs 2980-2997, `test_names`. -/
def testNames (m : Message) (name : Str) : List Str :=
  if name.head? = some '.' then [name.drop 1]
  else if m.package.isEmpty then [dotted m.name name, name]
  else [dotted (dotted m.package m.name) name, dotted m.package name] ++
    (dotPrefixes m.package).reverse.map (fun p => dotted p name) ++ [name]

/-- types.rs 2999-3005, one of the names looked up: messages before enums. -/
def FullNames.find (N : FullNames) (n : Str) : Option FieldType :=
  match N.msgs.lookup n with
  | some i => some (.message i)
  | none => (N.enums.lookup n).map .enum

/-- types.rs 2979-3008, the loop body for one type; the error is `MessageOrEnumNotFound(name)`. -/
def resolveOne (N : FullNames) (m : Message) : FieldType → Except Str FieldType
  | .messageOrEnum name =>
    match (testNames m name).findSome? N.find with
    | some t => .ok t
    | none => .error name
  | t => .ok t

/-- types.rs 2971-2976: a map type stands for its key and value types. -/
def resolveTyp (N : FullNames) (m : Message) : FieldType → Except Str FieldType
  | .map k v =>
    match resolveOne N m k with
    | .error e => .error e
    | .ok k' =>
      match resolveOne N m v with
      | .error e => .error e
      | .ok v' => .ok (.map k' v')
  | t => resolveOne N m t

/-- The loop over some fields of `m`. -/
def resolveFields (N : FullNames) (m : Message) : List Field → Except Str (List Field)
  | [] => .ok []
  | f :: fs =>
    match resolveTyp N m f.typ with
    | .error e => .error e
    | .ok t =>
      match resolveFields N m fs with
      | .error e => .error e
      | .ok fs' => .ok ({ f with typ := t } :: fs')

/-- types.rs 2970, `m.oneofs.iter_mut().flat_map(..)`. -/
def resolveOneofs (N : FullNames) (m : Message) : List OneOf → Except Str (List OneOf)
  | [] => .ok []
  | o :: os =>
    match resolveFields N m o.fields with
    | .error e => .error e
    | .ok fs =>
      match resolveOneofs N m os with
      | .error e => .error e
      | .ok os' => .ok ({ o with fields := fs } :: os')

mutual
/-- types.rs 2960-3014, `rec_resolve_types`. -/
def Message.resolve (N : FullNames) : Message → Except Str Message
  | ⟨name, fields, oneofs, nums, names, imported, pkg, messages, enums, module, index⟩ =>
    let m : Message := ⟨name, fields, oneofs, nums, names, imported, pkg, messages, enums, module, index⟩
    match resolveFields N m fields with
    | .error e => .error e
    | .ok fields' =>
      match resolveOneofs N m oneofs with
      | .error e => .error e
      | .ok oneofs' =>
        match Message.resolveAll N messages with
        | .error e => .error e
        | .ok messages' =>
          .ok ⟨name, fields', oneofs', nums, names, imported, pkg, messages', enums, module, index⟩
/-- types.rs 3010-3012, the nested messages. -/
def Message.resolveAll (N : FullNames) : List Message → Except Str (List Message)
  | [] => .ok []
  | m :: ms =>
    match m.resolve N with
    | .error e => .error e
    | .ok m' =>
      match Message.resolveAll N ms with
      | .error e => .error e
      | .ok ms' => .ok (m' :: ms')
end

/-- types.rs 2957-3020, `resolve_types`. -/
def FileDescriptor.resolveTypes (D : FileDescriptor) : Except Str FileDescriptor :=
  match Message.resolveAll D.fullNames D.setIndexes.messages with
  | .error e => .error e
  | .ok ms => .ok { D.setIndexes with messages := ms }

end QP.Pbrs
