import Verif.Spec.Grammar
/-!
# Printing a schema

A function that writes a schema as text (one of its texts: `Spec/Grammar.lean` has all), and which schemas it can write.
-/

namespace QP.Pbrs.Grammar
open Parse (File RpcFunction RpcService Extend)

/-- The decimal notation of a number without leading zeros. -/
def decimal (n : Nat) : Str := if n < 10 then [n.digitChar] else decimal (n / 10) ++ [(n % 10).digitChar]

/-- A type. -/
def printType : FieldType → Str
  | .messageOrEnum n => n
  | .map k v => c! "map<" ++ printType k ++ c! ", " ++ printType v ++ c! ">"
  | t => (scalars.lookup t).getD []

/-- The type can be printed: names are names, and are not those of scalar types and keywords, nor begin with the former. -/
def PrintableType : FieldType → Prop
  | .messageOrEnum n => Name n ∧ (∀ p ∈ scalars, ¬ p.2 <+: n) ∧
      n ∉ [c! "optional", c! "repeated", c! "required", c! "reserved", c! "map"]
  | .map k v => PrintableType k ∧ PrintableType v
  | t => (scalars.lookup t).isSome

/-- The label of a field. -/
def printLabel : Frequency → Str
  | .p2optional | .p3optional => c! "optional "
  | .p2repeated | .p3repeated => c! "repeated "
  | .p2required => c! "required "
  | _ => []

/-- The frequencies of the fields of each syntax. -/
def frequencies (syn : Syntax) (map : Bool) : List Frequency :=
  match syn, map with
  | .proto2, false => [.p2optional, .p2repeated, .p2required]
  | .proto2, true => [.p2map]
  | .proto3, false => [.p3default, .p3optional, .p3repeated]
  | .proto3, true => [.p3map]

/-- One option. -/
def printOption (k v : Str) : Str := c! "[" ++ k ++ c! " = " ++ v ++ c! "]"

/-- Is the default of the field written with quotes? -/
def quotes (syn : Syntax) (f : Field) : Prop := syn = .proto2 ∧ (f.typ = .stringCow ∨ f.typ = .bytesCow)

instance (syn : Syntax) (f : Field) : Decidable (quotes syn f) := by unfold quotes; infer_instance

/-- The options of a field. -/
def fieldOptions (syn : Syntax) (f : Field) : List (Str × Str) :=
  (match f.packed with | none => [] | some b => [(c! "packed", boolText b)]) ++
  (if f.deprecated then [(c! "deprecated", boolText true)] else []) ++
  (match f.default with
    | none => []
    | some d => [(c! "default", if quotes syn f then c! "\"" ++ d ++ c! "\"" else d)])

/-- A field without its label. -/
def printUnlabelled (syn : Syntax) (f : Field) : Str :=
  printType f.typ ++ c! " " ++ f.name ++ c! " = " ++ decimal f.number.toNat ++ c! " " ++
    ((fieldOptions syn f).map fun p => printOption p.1 p.2).flatten ++ c! ";"

/-- The field can be printed, but for its label. -/
structure PrintableField (syn : Syntax) (f : Field) : Prop where
  typ : PrintableType f.typ
  name : Word f.name
  number : 0 ≤ f.number ∧ f.number < 2 ^ 31
  boxed : f.boxed = false
  default : ∀ d, f.default = some d → if quotes syn f then '"' ∉ d ∧ ']' ∉ d else Value d

/-- A list of things, each on a line. -/
def printLines {α : Type} (p : α → Str) (l : List α) : Str := (l.map fun a => c! "\n" ++ p a).flatten

/-- A field. -/
def printField (syn : Syntax) (f : Field) : Str := printLabel f.frequency ++ printUnlabelled syn f

/-- A oneof. -/
def printOneOf (syn : Syntax) (o : OneOf) : Str :=
  c! "oneof " ++ o.name ++ c! " {" ++ printLines (printUnlabelled syn) o.fields ++ c! "\n}"

/-- An enum. -/
def printEnum (e : Enumerator) : Str :=
  c! "enum " ++ e.name ++ c! " {" ++ printLines (fun v : Str × Int => v.1 ++ c! " = " ++ decimal v.2.toNat ++ c! ";") e.fields ++
    c! "\n}"

/-- Things, separated by commas. -/
def printList {α : Type} (p : α → Str) : List α → Str
  | [] => []
  | [a] => p a
  | a :: l => p a ++ c! ", " ++ printList p l

/-- The reserved numbers. -/
def printNums : Option (List Int) → Str
  | none => []
  | some l => c! "\nreserved " ++ printList (fun n => decimal n.toNat) l ++ c! ";"

/-- The reserved names. -/
def printNames : Option (List Str) → Str
  | none => []
  | some l => c! "\nreserved " ++ printList (fun n => c! "\"" ++ n ++ c! "\"") l ++ c! ";"

/-- The reserved numbers and names. -/
def printReserved (nums : Option (List Int)) (names : Option (List Str)) : Str := printNums nums ++ printNames names

mutual
/-- A message. -/
def printMessage (syn : Syntax) : Message → Str
  | ⟨name, fields, oneofs, nums, names, _, _, messages, enums, _, _⟩ =>
    c! "message " ++ name ++ c! " {" ++
      (printLines (printField syn) fields ++ printLines (printOneOf syn) oneofs ++ printLines printEnum enums ++
        printMessages syn messages ++ printReserved nums names) ++ c! "\n}"
/-- Messages, each on a line. -/
def printMessages (syn : Syntax) : List Message → Str
  | [] => []
  | m :: ms => c! "\n" ++ printMessage syn m ++ printMessages syn ms
end

/-- The oneof can be printed. -/
structure PrintableOneOf (syn : Syntax) (o : OneOf) : Prop where
  name : Word o.name
  fields : ∀ f ∈ o.fields, PrintableField syn f ∧ f.frequency = (match syn with | .proto2 => .p2required | .proto3 => .p3optional)
  ne : o.fields ≠ []
  /-- Nothing but the name and the fields is set. -/
  plain : o = { name := o.name, fields := o.fields }

/-- The enum can be printed. -/
structure PrintableEnum (e : Enumerator) : Prop where
  name : Word e.name
  fields : ∀ v ∈ e.fields, Word v.1 ∧ 0 ≤ v.2 ∧ v.2 < 2 ^ 31
  plain : e = { name := e.name, fields := e.fields }

/-- The field of a message can be printed. -/
def PrintableMember (syn : Syntax) (f : Field) : Prop := PrintableField syn f ∧ f.frequency ∈ frequencies syn f.typ.isMap

/-- The message can be printed. -/
inductive PrintableMessage (syn : Syntax) : Message → Prop where
  | mk {m : Message} : Word m.name →
      (∀ f ∈ m.fields, PrintableMember syn f) →
      (∀ o ∈ m.oneofs, PrintableOneOf syn o) →
      (∀ e ∈ m.enums, PrintableEnum e) →
      (∀ n ∈ m.messages, PrintableMessage syn n) →
      (∀ l, m.reservedNums = some l → l ≠ [] ∧ ∀ n ∈ l, 0 ≤ n ∧ n < 2 ^ 31) →
      (∀ l, m.reservedNames = some l → l ≠ [] ∧ ∀ n ∈ l, '"' ∉ n) →
      /- Nothing else is set. -/
      m = { name := m.name, fields := m.fields, oneofs := m.oneofs, reservedNums := m.reservedNums,
            reservedNames := m.reservedNames, messages := m.messages, enums := m.enums } →
      PrintableMessage syn m

/-- An RPC. -/
def printRpc (f : RpcFunction) : Str :=
  c! "rpc " ++ f.name ++ c! " (" ++ f.arg ++ c! ") returns (" ++ f.ret ++ c! ");"

/-- A service. -/
def printService (s : RpcService) : Str :=
  c! "service " ++ s.name ++ c! " {" ++ printLines printRpc s.functions ++ c! "}"

/-- An `extend` block. -/
def printExtend (syn : Syntax) (e : Extend) : Str :=
  c! "extend " ++ e.name ++ c! " {" ++ printLines (printField syn) e.fields ++ c! "}"

/-- The syntax. -/
def printSyntax : Syntax → Str
  | .proto2 => c! "syntax = \"proto2\";"
  | .proto3 => c! "syntax = \"proto3\";"

/-- A file. -/
def printFile (F : File) : Str :=
  printSyntax F.desc.syntax_ ++
    (printLines (fun p => c! "import \"" ++ p ++ c! "\";") F.imports ++
      (if F.desc.package = [] then [] else c! "\npackage " ++ F.desc.package ++ c! ";") ++
      printLines printEnum F.desc.enums ++ printMessages F.desc.syntax_ F.desc.messages ++
      printLines printService F.services ++ printLines (printExtend F.desc.syntax_) F.extends_) ++ c! "\n"

/-- The file can be printed. -/
structure PrintableFile (F : File) : Prop where
  imports : ∀ p ∈ F.imports, '"' ∉ p
  package : F.desc.package = [] ∨ Name F.desc.package
  enums : ∀ e ∈ F.desc.enums, PrintableEnum e
  messages : ∀ m ∈ F.desc.messages, PrintableMessage F.desc.syntax_ m
  services : ∀ s ∈ F.services, Word s.name ∧ ∀ f ∈ s.functions, Word f.name ∧ Word f.arg ∧ Word f.ret
  extends_ : ∀ e ∈ F.extends_, Name e.name ∧ e.fields ≠ [] ∧ ∀ f ∈ e.fields, PrintableMember F.desc.syntax_ f
  plain : F.desc.module = [] ∧ F.desc.owned = false

end QP.Pbrs.Grammar
