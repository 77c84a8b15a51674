import Verif.Model.Pbrs.Parser
/-!
# The text of a schema

A grammar of `.proto` files, as relations between a schema and its texts: `FileText F s` says that `s` is a text of the file
`F`. Blanks and comments may be put wherever the grammar has a `Gap`. Only the part of the language that pb-rs handles is
covered; what is left out is said at each definition.
-/

namespace QP.Pbrs.Grammar
open Parse (File RpcFunction RpcService Extend)

/-- A blank character. -/
def Blank (c : Char) : Prop := c = ' ' ∨ c = '\t' ∨ c = '\r' ∨ c = '\n'

/-- Blanks and comments (possibly none). -/
inductive Gap : Str → Prop where
  | nil : Gap []
  | blank {c : Char} {s : Str} : Blank c → Gap s → Gap (c :: s)
  /-- `// ...`, to the end of the line. -/
  | line {l e s : Str} : (∀ c ∈ l, c ≠ '\n' ∧ c ≠ '\r') → (e = c! "\n" ∨ e = c! "\r\n") → Gap s →
      Gap (c! "//" ++ l ++ e ++ s)
  /-- A comment in `/*` and `*/`. -/
  | block {b s : Str} : ¬ c! "*/" <:+: b ++ c! "*" → Gap s → Gap (c! "/*" ++ b ++ c! "*/" ++ s)

/-- At least one blank or comment. -/
def Gap1 (s : Str) : Prop := Gap s ∧ s ≠ []

/-- Blanks (possibly none). -/
def Blanks (s : Str) : Prop := ∀ c ∈ s, Blank c

/-- A letter or `_`. -/
def Letter (c : Char) : Prop := c.isAlpha = true ∨ c = '_'

/-- A letter, a digit or `_`. -/
def WordChar (c : Char) : Prop := c.isAlphanum = true ∨ c = '_'

/-- An identifier. -/
def Word (w : Str) : Prop := ∃ c cs, w = c :: cs ∧ Letter c ∧ ∀ d ∈ cs, WordChar d

/-- Identifiers separated by dots. -/
inductive Dotted : Str → Prop where
  | word {w : Str} : Word w → Dotted w
  | dot {w n : Str} : Word w → Dotted n → Dotted (w ++ c! "." ++ n)

/-- A possibly qualified name. -/
def Name (n : Str) : Prop := Dotted n ∨ ∃ m, n = '.' :: m ∧ Dotted m

/-- The decimal notations of a number. -/
inductive Decimal : Nat → Str → Prop where
  | digit {d : Nat} : d < 10 → Decimal d [d.digitChar]
  | more {n d : Nat} {s : Str} : Decimal n s → d < 10 → Decimal (10 * n + d) (s ++ [d.digitChar])

/-- The hexadecimal digits: upper or lower case. -/
def HexDigit (d : Nat) (c : Char) : Prop := d < 16 ∧ (c = d.digitChar ∨ c = d.digitChar.toUpper)

/-- The hexadecimal notations of a number, without the prefix `0x`. -/
inductive Hex : Nat → Str → Prop where
  | digit {d : Nat} {c : Char} : HexDigit d c → Hex d [c]
  | more {n d : Nat} {c : Char} {s : Str} : Hex n s → HexDigit d c → Hex (16 * n + d) (s ++ [c])

/-- The names of the scalar types. -/
def scalars : List (FieldType × Str) := [
  (.double, c! "double"), (.float, c! "float"), (.int32, c! "int32"), (.int64, c! "int64"), (.uint32, c! "uint32"),
  (.uint64, c! "uint64"), (.sint32, c! "sint32"), (.sint64, c! "sint64"), (.fixed32, c! "fixed32"),
  (.fixed64, c! "fixed64"), (.sfixed32, c! "sfixed32"), (.sfixed64, c! "sfixed64"), (.bool, c! "bool"),
  (.stringCow, c! "string"), (.bytesCow, c! "bytes")]

/-- A type. Left out: names that begin with the name of a scalar type, such as `stringList` (see C58), and types called like
the keywords `optional`, `repeated`, `required`, `reserved` or `map`. -/
inductive TypeText : FieldType → Str → Prop where
  | scalar {t : FieldType} {k : Str} : (t, k) ∈ scalars → TypeText t k
  | name {n : Str} : Name n → (∀ p ∈ scalars, ¬ p.2 <+: n) →
      n ∉ [c! "optional", c! "repeated", c! "required", c! "reserved", c! "map"] → TypeText (.messageOrEnum n) n
  | map {k v : FieldType} {tk tv g1 g2 g3 g4 g5 : Str} : TypeText k tk → TypeText v tv →
      Gap g1 → Gap g2 → Gap g3 → Gap g4 → Gap g5 →
      TypeText (.map k v) (c! "map" ++ g1 ++ c! "<" ++ g2 ++ tk ++ g3 ++ c! "," ++ g4 ++ tv ++ g5 ++ c! ">")

/-- A visible ASCII character. -/
def Visible (c : Char) : Prop := 33 ≤ c.toNat ∧ c.toNat ≤ 126

/-- The value of a field option: no `]` in it, visible characters at its ends, no `/` at its beginning. -/
def Value (v : Str) : Prop :=
  ']' ∉ v ∧ (∃ c, v.head? = some c ∧ Visible c ∧ c ≠ '/') ∧ (∃ c, v.getLast? = some c ∧ Visible c)

/-- The options of a field: `[k = v]` for each, following one another. Left out: several options in one pair of brackets
(see C57). -/
inductive OptionsText : List (Str × Str) → Str → Prop where
  | nil : OptionsText [] []
  | cons {k v g1 g2 g3 b t : Str} {kvs : List (Str × Str)} : Word k → Value v → Gap g1 → Gap g2 → Gap g3 → Blanks b →
      OptionsText kvs t →
      OptionsText ((k, v) :: kvs) (c! "[" ++ g1 ++ k ++ g2 ++ c! "=" ++ g3 ++ v ++ b ++ c! "]" ++ t)

/-- The default `d`, written with quotes. -/
def Quoted (d v : Str) : Prop :=
  (v = c! "\"" ++ d ++ c! "\"" ∧ '"' ∉ d) ∨ (v = c! "'" ++ d ++ c! "'" ∧ '\'' ∉ d)

/-- The texts of the truth values. -/
def boolText (b : Bool) : Str := if b then c! "true" else c! "false"

/-- The field has these options. -/
structure HasOptions (syn : Syntax) (f : Field) (kvs : List (Str × Str)) : Prop where
  packed : kvs.lookup (c! "packed") = f.packed.map boolText
  deprecated : kvs.lookup (c! "deprecated") = some (boolText f.deprecated) ∨
    (kvs.lookup (c! "deprecated") = none ∧ f.deprecated = false)
  default :
    (kvs.lookup (c! "default") = none ∧ f.default = none) ∨
    ∃ v d, kvs.lookup (c! "default") = some v ∧ f.default = some d ∧
      if syn = .proto2 ∧ (f.typ = .stringCow ∨ f.typ = .bytesCow) then Quoted d v else v = d

/-- The label of a field (of a type that is a map or not), with the gap after it. -/
inductive LabelText : Syntax → Bool → Frequency → Str → Prop where
  | optional2 {g : Str} : Gap1 g → LabelText .proto2 false .p2optional (c! "optional" ++ g)
  | required2 {g : Str} : Gap1 g → LabelText .proto2 false .p2required (c! "required" ++ g)
  | repeated2 {g : Str} : Gap1 g → LabelText .proto2 false .p2repeated (c! "repeated" ++ g)
  | none2 : LabelText .proto2 false .p2optional []
  | map2 : LabelText .proto2 true .p2map []
  | optional3 {g : Str} : Gap1 g → LabelText .proto3 false .p3optional (c! "optional" ++ g)
  | repeated3 {g : Str} : Gap1 g → LabelText .proto3 false .p3repeated (c! "repeated" ++ g)
  | none3 : LabelText .proto3 false .p3default []
  | map3 : LabelText .proto3 true .p3map []

/-- A field after its label: `type name = number [options];`. Left out: hexadecimal numbers (see C56). -/
inductive UnlabelledText (syn : Syntax) : Field → Str → Prop where
  | mk {f : Field} {n : Nat} {kvs : List (Str × Str)} {ty g1 g2 g3 num g4 opts g5 : Str} :
      TypeText f.typ ty → Gap1 g1 → Word f.name → Gap g2 → Gap g3 → Decimal n num → f.number = n → n < 2 ^ 31 → Gap g4 →
      OptionsText kvs opts → HasOptions syn f kvs → Gap g5 → f.boxed = false →
      UnlabelledText syn f (ty ++ g1 ++ f.name ++ g2 ++ c! "=" ++ g3 ++ num ++ g4 ++ opts ++ g5 ++ c! ";")

/-- A field of a message. -/
def FieldText (syn : Syntax) (f : Field) (s : Str) : Prop :=
  ∃ label t, s = label ++ t ∧ LabelText syn f.typ.isMap f.frequency label ∧ UnlabelledText syn f t

/-- A field of a oneof. -/
def OneofFieldText (syn : Syntax) (f : Field) (s : Str) : Prop :=
  f.frequency = (match syn with | .proto2 => .p2required | .proto3 => .p3optional) ∧ UnlabelledText syn f s

/-- Some things, in order, each possibly after a gap; `T` says what their texts are. -/
inductive ManyText {α : Type} (T : α → Str → Prop) : List α → Str → Prop where
  | nil : ManyText T [] []
  | cons {a : α} {as : List α} {g t s : Str} : Gap g → T a t → ManyText T as s → ManyText T (a :: as) (g ++ t ++ s)

/-- A oneof. -/
inductive OneOfText (syn : Syntax) : OneOf → Str → Prop where
  | mk {name g1 g2 b g3 : Str} {fs : List Field} : Gap1 g1 → Word name → Gap g2 → ManyText (OneofFieldText syn) fs b →
      fs ≠ [] → Gap g3 →
      OneOfText syn { name := name, fields := fs }
        (c! "oneof" ++ g1 ++ name ++ g2 ++ c! "{" ++ b ++ g3 ++ c! "}")

/-- An option of a file, message or enum, `option name = value;` or `option (name) ...;`: it is ignored. Left out: a number
as the value, and `;` in the value. -/
inductive OptionText : Str → Prop where
  | plain {g1 name g2 g3 v : Str} : Gap1 g1 → Word name → Gap g2 → Gap g3 → ';' ∉ g2 → ';' ∉ g3 → ';' ∉ v →
      (∃ c, v.head? = some c ∧ ¬ Blank c ∧ c ≠ '/' ∧ c.isDigit = false) →
      OptionText (c! "option" ++ g1 ++ name ++ g2 ++ c! "=" ++ g3 ++ v ++ c! ";")
  | custom {g1 v : Str} : Gap1 g1 → ';' ∉ v → OptionText (c! "option" ++ g1 ++ c! "(" ++ v ++ c! ";")

/-- `;`, or nothing. -/
def SemiText (s : Str) : Prop := s = [] ∨ ∃ g, Gap g ∧ s = g ++ c! ";"

/-- The notations of a number in an enum: decimal, or hexadecimal with the prefix `0x`. -/
def EnumNumber (n : Nat) (s : Str) : Prop := Decimal n s ∨ ∃ h, Hex n h ∧ s = c! "0x" ++ h

/-- What may stand between the number of an enum value and the `;`: nothing or `[deprecated = ...]`, which is ignored. -/
inductive EnumTail : Str → Prop where
  | gap {g : Str} : Gap g → EnumTail g
  | deprecated {g b1 b2 b3 w b4 g' : Str} : Gap g → Blanks b1 → Blanks b2 → Blanks b3 → Word w → Blanks b4 → Gap g' →
      EnumTail (g ++ c! "[" ++ b1 ++ c! "deprecated" ++ b2 ++ c! "=" ++ b3 ++ w ++ b4 ++ c! "]" ++ g')

/-- The values of an enum. Left out: negative numbers. -/
inductive EnumBody : List (Str × Int) → Str → Prop where
  | nil : EnumBody [] []
  | value {l : List (Str × Int)} {s g name g1 g2 num t : Str} {n : Nat} : EnumBody l s → Gap g → Word name → Gap g1 →
      Gap g2 → EnumNumber n num → n < 2 ^ 31 → EnumTail t →
      EnumBody (l ++ [(name, (n : Int))]) (s ++ g ++ name ++ g1 ++ c! "=" ++ g2 ++ num ++ t ++ c! ";")
  | option {l : List (Str × Int)} {s g t : Str} : EnumBody l s → Gap g → OptionText t → EnumBody l (s ++ g ++ t)

/-- An enum. -/
inductive EnumText : Enumerator → Str → Prop where
  | mk {name g1 g2 b g3 e : Str} {l : List (Str × Int)} : Gap1 g1 → Word name → Gap g2 → EnumBody l b → Gap g3 → SemiText e →
      EnumText { name := name, fields := l }
        (c! "enum" ++ g1 ++ name ++ g2 ++ c! "{" ++ b ++ g3 ++ c! "}" ++ e)

/-- A number, or all numbers from one to another. -/
inductive RangeText : List Int → Str → Prop where
  | one {n : Nat} {s : Str} : Decimal n s → n < 2 ^ 31 → RangeText [(n : Int)] s
  | range {a b : Nat} {l : List Int} {s t g1 g2 : Str} : Decimal a s → Decimal b t → a < 2 ^ 31 → b < 2 ^ 31 →
      Gap1 g1 → Gap1 g2 → l.Pairwise (· < ·) → (∀ i, i ∈ l ↔ (a : Int) ≤ i ∧ i ≤ b) →
      RangeText l (s ++ g1 ++ c! "to" ++ g2 ++ t)

/-- Numbers and ranges, separated by commas. -/
inductive RangesText : List Int → Str → Prop where
  | one {l : List Int} {s : Str} : RangeText l s → RangesText l s
  | more {l l' : List Int} {s t g1 g2 : Str} : RangeText l s → Gap g1 → Gap g2 → RangesText l' t →
      RangesText (l ++ l') (s ++ g1 ++ c! "," ++ g2 ++ t)

/-- Quoted names, separated by commas. -/
inductive NamesText : List Str → Str → Prop where
  | one {n : Str} : '"' ∉ n → NamesText [n] (c! "\"" ++ n ++ c! "\"")
  | more {n : Str} {l : List Str} {t g1 g2 : Str} : '"' ∉ n → Gap g1 → Gap g2 → NamesText l t →
      NamesText (n :: l) (c! "\"" ++ n ++ c! "\"" ++ g1 ++ c! "," ++ g2 ++ t)

/-- `extensions 100 to 199;`: it is ignored. -/
inductive ExtensionsText : Str → Prop where
  | mk {n : Nat} {g1 g2 g3 s e b : Str} : Gap1 g1 → Decimal n s → n < 2 ^ 31 → Gap1 g2 → Gap1 g3 →
      (e = c! "max" ∨ ∃ m, Decimal m e ∧ m < 2 ^ 31) → Blanks b →
      ExtensionsText (c! "extensions" ++ g1 ++ s ++ g2 ++ c! "to" ++ g3 ++ e ++ b ++ c! ";")

/-- The statements between the braces of a message: the message (its name, and what the statements put into it), and the
text. Left out: several `reserved` statements of numbers, or of names (of which pb-rs keeps the last). -/
inductive BodyText (syn : Syntax) : Message → Str → Prop where
  | nil {name : Str} : BodyText syn { name := name, fields := [] } []
  | field {m : Message} {f : Field} {s g t : Str} : BodyText syn m s → Gap g → FieldText syn f t →
      BodyText syn { m with fields := m.fields ++ [f] } (s ++ g ++ t)
  | oneof {m : Message} {o : OneOf} {s g t : Str} : BodyText syn m s → Gap g → OneOfText syn o t →
      BodyText syn { m with oneofs := m.oneofs ++ [o] } (s ++ g ++ t)
  | enum {m : Message} {e : Enumerator} {s g t : Str} : BodyText syn m s → Gap g → EnumText e t →
      BodyText syn { m with enums := m.enums ++ [e] } (s ++ g ++ t)
  | message {m n : Message} {s g g1 g2 b g3 e : Str} : BodyText syn m s → Gap g → Gap1 g1 → Word n.name → Gap g2 →
      BodyText syn n b → Gap g3 → SemiText e →
      BodyText syn { m with messages := m.messages ++ [n] }
        (s ++ g ++ (c! "message" ++ g1 ++ n.name ++ g2 ++ c! "{" ++ b ++ g3 ++ c! "}" ++ e))
  | reservedNums {m : Message} {l : List Int} {s g g1 t g2 : Str} : BodyText syn m s → Gap g → m.reservedNums = none →
      Gap1 g1 → RangesText l t → Gap g2 →
      BodyText syn { m with reservedNums := some l } (s ++ g ++ (c! "reserved" ++ g1 ++ t ++ g2 ++ c! ";"))
  | reservedNames {m : Message} {l : List Str} {s g g1 t g2 : Str} : BodyText syn m s → Gap g → m.reservedNames = none →
      Gap1 g1 → NamesText l t → Gap g2 →
      BodyText syn { m with reservedNames := some l } (s ++ g ++ (c! "reserved" ++ g1 ++ t ++ g2 ++ c! ";"))
  | extensions {m : Message} {s g t : Str} : BodyText syn m s → Gap g → ExtensionsText t → BodyText syn m (s ++ g ++ t)
  | option {m : Message} {s g t : Str} : BodyText syn m s → Gap g → OptionText t → BodyText syn m (s ++ g ++ t)

/-- A message. -/
inductive MessageText (syn : Syntax) : Message → Str → Prop where
  | mk {m : Message} {g1 g2 b g3 e : Str} : Gap1 g1 → Word m.name → Gap g2 → BodyText syn m b → Gap g3 → SemiText e →
      MessageText syn m (c! "message" ++ g1 ++ m.name ++ g2 ++ c! "{" ++ b ++ g3 ++ c! "}" ++ e)

/-- An RPC, with nothing but options (and no gaps) between its braces, if it has any. -/
inductive RpcText : RpcFunction → Str → Prop where
  | mk {name arg ret g1 g2 g3 g4 g5 g6 g7 g8 g9 e : Str} : Gap1 g1 → Word name → Gap g2 → Gap g3 → Word arg → Gap g4 →
      Gap1 g5 → Gap g6 → Gap g7 → Word ret → Gap g8 → Gap g9 →
      (e = c! ";" ∨ ∃ (g : Str) (l : List Str) (g' : Str), Gap g ∧ (∀ t ∈ l, OptionText t) ∧ Gap g' ∧ e = c! "{" ++ g ++ l.flatten ++ g' ++ c! "}") →
      RpcText { name := name, arg := arg, ret := ret }
        (c! "rpc" ++ g1 ++ name ++ g2 ++ c! "(" ++ g3 ++ arg ++ g4 ++ c! ")" ++ g5 ++ c! "returns" ++ g6 ++ c! "(" ++ g7 ++
          ret ++ g8 ++ c! ")" ++ g9 ++ e)

/-- A service. If it has no functions there is nothing, not even a blank, between its braces (pb-rs rejects `{ }`). -/
inductive ServiceText : RpcService → Str → Prop where
  | mk {name g1 g2 b g3 : Str} {l : List RpcFunction} : Gap1 g1 → Word name → Gap g2 → ManyText RpcText l b → Gap g3 →
      (l = [] → g3 = []) →
      ServiceText { name := name, functions := l }
        (c! "service" ++ g1 ++ name ++ g2 ++ c! "{" ++ b ++ g3 ++ c! "}")

/-- An `extend` block. -/
inductive ExtendText (syn : Syntax) : Extend → Str → Prop where
  | mk {name g1 g2 b g3 e : Str} {fs : List Field} : Gap1 g1 → Name name → Gap g2 → ManyText (FieldText syn) fs b →
      fs ≠ [] → Gap g3 → SemiText e →
      ExtendText syn { name := name, fields := fs }
        (c! "extend" ++ g1 ++ name ++ g2 ++ c! "{" ++ b ++ g3 ++ c! "}" ++ e)

/-- The statements of a file, after its syntax statement: what they put into the descriptor that has the syntax already. -/
inductive StatementsText (syn : Syntax) : File → Str → Prop where
  | nil : StatementsText syn { desc := { syntax_ := syn } } []
  | import_ {F : File} {p s g g1 g2 : Str} : StatementsText syn F s → Gap g → Gap1 g1 → '"' ∉ p → Gap g2 →
      StatementsText syn { F with imports := F.imports ++ [p] }
        (s ++ g ++ (c! "import" ++ g1 ++ c! "\"" ++ p ++ c! "\"" ++ g2 ++ c! ";"))
  | package {F : File} {p s g g1 g2 : Str} : StatementsText syn F s → Gap g → Gap1 g1 → Name p → Gap g2 →
      StatementsText syn { F with desc := { F.desc with package := p } }
        (s ++ g ++ (c! "package" ++ g1 ++ p ++ g2 ++ c! ";"))
  | message {F : File} {m : Message} {s g t : Str} : StatementsText syn F s → Gap g → MessageText syn m t →
      StatementsText syn { F with desc := { F.desc with messages := F.desc.messages ++ [m] } } (s ++ g ++ t)
  | enum {F : File} {e : Enumerator} {s g t : Str} : StatementsText syn F s → Gap g → EnumText e t →
      StatementsText syn { F with desc := { F.desc with enums := F.desc.enums ++ [e] } } (s ++ g ++ t)
  | service {F : File} {r : RpcService} {s g t : Str} : StatementsText syn F s → Gap g → ServiceText r t →
      StatementsText syn { F with services := F.services ++ [r] } (s ++ g ++ t)
  | extend {F : File} {e : Extend} {s g t : Str} : StatementsText syn F s → Gap g → ExtendText syn e t →
      StatementsText syn { F with extends_ := F.extends_ ++ [e] } (s ++ g ++ t)
  | option {F : File} {s g t : Str} : StatementsText syn F s → Gap g → OptionText t → StatementsText syn F (s ++ g ++ t)

/-- The syntax statement. -/
inductive SyntaxText : Syntax → Str → Prop where
  | proto2 {g1 g2 g3 : Str} : Gap g1 → Gap g2 → Gap g3 →
      SyntaxText .proto2 (c! "syntax" ++ g1 ++ c! "=" ++ g2 ++ c! "\"proto2\"" ++ g3 ++ c! ";")
  | proto3 {g1 g2 g3 : Str} : Gap g1 → Gap g2 → Gap g3 →
      SyntaxText .proto3 (c! "syntax" ++ g1 ++ c! "=" ++ g2 ++ c! "\"proto3\"" ++ g3 ++ c! ";")

/-- What may stand after the last statement: blanks and comments, the last comment perhaps not ended. -/
def EndGap (s : Str) : Prop := Gap s ∨ ∃ g l, Gap g ∧ (∀ c ∈ l, c ≠ '\n' ∧ c ≠ '\r') ∧ s = g ++ c! "//" ++ l

/-- A file. It has no syntax statement (and then is a proto2 file), or the file begins with it, immediately (see C55), and
something follows it, be it a blank. -/
inductive FileText : File → Str → Prop where
  | default {F : File} {s g : Str} : StatementsText .proto2 F s → EndGap g → FileText F (s ++ g)
  | stated {syn : Syntax} {F : File} {t s g : Str} : SyntaxText syn t → StatementsText syn F s → EndGap g → s ++ g ≠ [] →
      FileText F (t ++ s ++ g)

end QP.Pbrs.Grammar
