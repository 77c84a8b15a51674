import Verif.Model.Pbrs.Resolve
/-!
# Scopes of a `.proto` file
-/

namespace QP.Pbrs

/-- The scopes a message encloses its fields in, as a path: the segments of its package (which includes the names of the
messages around it), then its name. -/
def scopePath (m : Message) : List Str := (if m.package.isEmpty then [] else splitDot m.package) ++ [m.name]

/-- The enclosing scopes of a field of `m`, innermost first: the whole path, the path without its last segment, …, the
root. -/
def scopes (m : Message) : List (List Str) :=
  (List.range ((scopePath m).length + 1)).reverse.map (fun k => (scopePath m).take k)

/-- The full names a type name used in `m` may stand for, in order of preference: a name with a leading dot is absolute, any
other name is looked up in the enclosing scopes. -/
def candidates (m : Message) (name : Str) : List Str :=
  match name with
  | '.' :: rest => [rest]
  | _ => (scopes m).map (fun sc => joinDot (sc ++ [name]))

/-- Some message or enum of the schema has that full name. -/
inductive Declares (D : FileDescriptor) (n : Str) : FieldType → Prop
  | message (i : MessageIndex) (m : Message) : D.getMessage i = some m → m.fullName = n → Declares D n (.message i)
  | nested (i : MessageIndex) (m : Message) (k : Nat) (e : Enumerator) : D.getMessage i = some m → m.enums[k]? = some e →
      e.nestedName = n → Declares D n (.enum ⟨i, k⟩)
  | top (k : Nat) (e : Enumerator) : D.enums[k]? = some e → e.fullName = n → Declares D n (.enum ⟨[], k⟩)

/-- `name`, used in message `m`, means `t`: a declaration found in the innermost scope that has one. -/
def Means (D : FileDescriptor) (m : Message) (name : Str) (t : FieldType) : Prop :=
  ∃ inner c outer, candidates m name = inner ++ c :: outer ∧ Declares D c t ∧ ∀ c' ∈ inner, ∀ t', ¬ Declares D c' t'

/-- `name`, used in message `m`, means nothing. -/
def Undeclared (D : FileDescriptor) (m : Message) (name : Str) : Prop :=
  ∀ c ∈ candidates m name, ∀ t, ¬ Declares D c t

/-- The type `t`, not a map, used in message `m`, is resolved to `t'`. -/
def ResolvesOne (D : FileDescriptor) (m : Message) (t t' : FieldType) : Prop :=
  match t with
  | .messageOrEnum n => Means D m n t'
  | _ => t' = t

/-- The type `t`, used in message `m`, is resolved to `t'`; in a map type both the key and the value type are. -/
def ResolvesTo (D : FileDescriptor) (m : Message) (t t' : FieldType) : Prop :=
  match t with
  | .map k v => ∃ k' v', t' = .map k' v' ∧ ResolvesOne D m k k' ∧ ResolvesOne D m v v'
  | _ => ResolvesOne D m t t'

/-- The type mentions the name (also in a map). -/
def FieldType.uses (t : FieldType) (n : Str) : Prop :=
  t = .messageOrEnum n ∨ ∃ k v, t = .map k v ∧ (k = .messageOrEnum n ∨ v = .messageOrEnum n)

/-- The message with its place `i` noted (in it and in its enums), and its submessages dropped. -/
def Message.at (m : Message) (i : MessageIndex) : Message :=
  { m with index := i, messages := [], enums := m.enums.zipIdx.map (fun (e, k) => { e with index := ⟨i, k⟩ }) }

/-- The names of the messages on the way down to the message at a path. -/
def namesAlong : List Message → List Nat → List Str
  | _, [] => []
  | ms, j :: js =>
    match ms[j]? with
    | none => []
    | some m => m.name :: namesAlong m.messages js

end QP.Pbrs
