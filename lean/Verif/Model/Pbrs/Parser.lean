import Verif.Model.Pbrs.Nom
/-!
# `pb-rs/src/parser.rs`

The combinators are those of the source, in the same order. The numbers of an `extensions` statement are parsed but not kept
(nothing modelled later uses them).
-/

namespace QP.Pbrs.Parse
open Nom

/-- `char::is_ascii_alphabetic`. -/
def isAlpha (c : Char) : Bool := ('a' ≤ c && c ≤ 'z') || ('A' ≤ c && c ≤ 'Z')
/-- `char::is_ascii_digit`. -/
def isDigit (c : Char) : Bool := '0' ≤ c && c ≤ '9'
/-- `char::is_ascii_hexdigit`. -/
def isHexDigit (c : Char) : Bool := isDigit c || ('a' ≤ c && c ≤ 'f') || ('A' ≤ c && c ≤ 'F')
/-- The characters of `multispace1`. -/
def isSpace (c : Char) : Bool := c = ' ' || c = '\t' || c = '\r' || c = '\n'
/-- `char::is_whitespace` (Unicode `White_Space`), for `str::trim`. -/
def isWhite (c : Char) : Bool :=
  (9 ≤ c.toNat && c.toNat ≤ 13) || c.toNat == 0x20 || c.toNat == 0x85 || c.toNat == 0xA0 || c.toNat == 0x1680
    || (0x2000 ≤ c.toNat && c.toNat ≤ 0x200A) || c.toNat == 0x2028 || c.toNat == 0x2029 || c.toNat == 0x202F
    || c.toNat == 0x205F || c.toNat == 0x3000

/-- `str::trim`. -/
def trim (s : Str) : Str := ((s.dropWhile isWhite).reverse.dropWhile isWhite).reverse

/-- The number denoted by digits in base `b`. -/
def digitsVal (b : Nat) (s : Str) : Nat :=
  s.foldl (fun n c =>
    b * n + (if isDigit c then c.toNat - '0'.toNat else if 'a' ≤ c then c.toNat - 'a'.toNat + 10 else c.toNat - 'A'.toNat + 10)) 0

/-- `i32::from_str_radix` on digits (no sign): `None` on overflow. -/
def parseNat32 (b : Nat) (s : Str) : Res Int :=
  if digitsVal b s < 2 ^ 31 then .ok (digitsVal b s) [] else .err

/-- `str::parse::<i32>`, with an optional sign. -/
def parseI32 (s : Str) : Option Int :=
  let (neg, d) : Bool × Str := match s with
    | '-' :: d => (true, d)
    | '+' :: d => (false, d)
    | d => (false, d)
  if d.isEmpty || !d.all isDigit then none
  else
    let v : Int := if neg then -(digitsVal 10 d) else digitsVal 10 d
    if -(2 : Int) ^ 31 ≤ v ∧ v < 2 ^ 31 then some v else none

/-- parser.rs 70-82, `word_ref`; 84-86, `word`. -/
def word : Parser Str :=
  recognize (pair (alt [takeWhile1 isAlpha, tok (c! "_")])
    (many0 (alt [takeWhile1 (fun c => isAlpha c || isDigit c), tok (c! "_")])))

/-- parser.rs 60-68, `qualifiable_name`. -/
def qualifiableName : Parser Str :=
  verify (recognize (pair (opt (tok (c! "."))) (separatedList1 (tok (c! ".")) word)))
    (fun s => s.getLast? != some '.' && (splitAt? (c! "..") s).isNone)

/-- parser.rs 88-93, `hex_integer`. -/
def hexInteger : Parser Int := preceded (tok (c! "0x")) (mapRes (takeWhile1 isHexDigit) (parseNat32 16))

/-- parser.rs 95-97, `integer`. -/
def integer : Parser Int := mapRes (takeWhile1 isDigit) (parseNat32 10)

/-- parser.rs 99-101, `comment`. -/
def comment : Parser Unit := value () (pair (tok (c! "//")) notLineEnding)

/-- parser.rs 103-105, `block_comment`. -/
def blockComment : Parser Unit := value () (pair (tok (c! "/*")) (pair (takeUntil (c! "*/")) (tok (c! "*/"))))

/-- parser.rs 107-112, `string`. -/
def string : Parser Str := delimited (tok (c! "\"")) (takeUntil (c! "\"")) (tok (c! "\""))

/-- parser.rs 115-120, `br`. -/
def br : Parser Unit := value () (many1 (alt [value () (takeWhile1 isSpace), comment, blockComment]))

/-- `many0(br)`. -/
def gap0 : Parser Unit := value () (many0 br)
/-- `many1(br)`. -/
def gap1 : Parser Unit := value () (many1 br)

/-- parser.rs 122-131, `syntax`. -/
def syntaxP : Parser Syntax :=
  delimited (pair (tok (c! "syntax")) (pair gap0 (pair (tok (c! "=")) gap0)))
    (alt [value .proto2 (tok (c! "\"proto2\"")), value .proto3 (tok (c! "\"proto3\""))])
    (pair gap0 (tok (c! ";")))

/-- parser.rs 133-139, `import`. -/
def importP : Parser Str := delimited (pair (tok (c! "import")) gap1) string (pair gap0 (tok (c! ";")))

/-- parser.rs 141-147, `package`. -/
def packageP : Parser Str := delimited (pair (tok (c! "package")) gap1) qualifiableName (pair gap0 (tok (c! ";")))

/-- parser.rs 149-170, `extensions`: the numbers are dropped, but `s.parse().unwrap()` may panic. -/
def extensions : Parser Unit :=
  mapRes (delimited (pair (tok (c! "extensions")) gap1)
      (pair integer (preceded (pair gap0 (pair (tok (c! "to")) gap1)) (takeUntil (c! ";")))) (tok (c! ";")))
    (fun p => if trim p.2 = c! "max" then .ok () [] else
      match parseI32 (trim p.2) with
      | some _ => .ok () []
      | none => .panic)

/-- `(from_..=to).collect()`. -/
def intRange (a b : Int) : List Int := (List.range (b + 1 - a).toNat).map fun k : Nat => a + (k : Int)

/-- parser.rs 172-177, `num_range`. -/
def numRange : Parser (List Int) :=
  map (separatedPair integer (pair gap1 (pair (tok (c! "to")) gap1)) integer) fun p => intRange p.1 p.2

/-- The separator of the lists below. -/
def comma : Parser Unit := value () (pair gap0 (pair (tok (c! ",")) gap0))

/-- parser.rs 179-191, `reserved_nums`. -/
def reservedNums : Parser (List Int) :=
  map (delimited (pair (tok (c! "reserved")) gap1)
    (separatedList1 comma (alt [numRange, map integer fun i => [i]]))
    (pair gap0 (tok (c! ";")))) List.flatten

/-- parser.rs 193-199, `reserved_names`. -/
def reservedNames : Parser (List Str) :=
  delimited (pair (tok (c! "reserved")) gap1) (separatedList1 comma string) (pair gap0 (tok (c! ";")))

/-- parser.rs 201-211, `key_val`. -/
def keyVal : Parser (Str × Str) :=
  delimited (pair (tok (c! "[")) gap0)
    (separatedPair word (delimited gap0 (tok (c! "=")) gap0) (map (takeUntil (c! "]")) trim))
    (tok (c! "]"))

/-- parser.rs 22-27. -/
inductive FreqToken where
  | optional | repeated | required
deriving DecidableEq

/-- parser.rs 213-219, `frequency`. -/
def frequency : Parser FreqToken :=
  alt [value .optional (tok (c! "optional")), value .repeated (tok (c! "repeated")), value .required (tok (c! "required"))]

/-- parser.rs 223-237, the scalar types in the order of the `alt`. -/
def scalarTypes : List (FieldType × Str) := [
  (.int32, c! "int32"), (.int64, c! "int64"), (.uint32, c! "uint32"), (.uint64, c! "uint64"),
  (.sint32, c! "sint32"), (.sint64, c! "sint64"), (.fixed32, c! "fixed32"), (.sfixed32, c! "sfixed32"),
  (.fixed64, c! "fixed64"), (.sfixed64, c! "sfixed64"), (.bool, c! "bool"), (.stringCow, c! "string"),
  (.bytesCow, c! "bytes"), (.float, c! "float"), (.double, c! "double")]

/-- parser.rs 243-253, `map_field`, given `field_type`. -/
def mapField (ft : Parser FieldType) : Parser FieldType :=
  map (delimited (pair (tok (c! "map")) (pair gap0 (pair (tok (c! "<")) gap0)))
    (separatedPair ft (delimited gap0 (tok (c! ",")) gap0) ft)
    (pair gap0 (tok (c! ">")))) fun p => .map p.1 p.2

/-- parser.rs 221-241, `field_type`, with maps nested less than `n` deep. -/
def fieldTypeN : Nat → Parser FieldType
  | 0 => fun _ => .err
  | n + 1 => alt (scalarTypes.map (fun p => value p.1 (tok p.2)) ++
      [mapField (fieldTypeN n), map qualifiableName FieldType.messageOrEnum])

/-- parser.rs 221-241, `field_type` (each nested map consumes input). -/
def fieldType : Parser FieldType := fun s => fieldTypeN (s.length + 1) s

/-- parser.rs 255-279, `default_check`. -/
def defaultCheck (syn : Syntax) (typ : FieldType) (kvs : List (Str × Str)) : Res (Option Str) :=
  match kvs.find? (fun p => p.1 == c! "default") with
  | none => .ok none []
  | some (_, v) =>
    match syn, typ with
    | .proto2, .stringCow | .proto2, .bytesCow =>
      match alt [delimited (tok (c! "\"")) (takeUntil (c! "\"")) (tok (c! "\"")),
          delimited (tok (c! "'")) (takeUntil (c! "'")) (tok (c! "'"))] v with
      | .ok s _ => .ok (some s) []
      | .err => .err
      | .panic => .panic
    | _, _ => .ok (some v) []

/-- parser.rs 281-316, `Frequency::try_from`. -/
def toFrequency (syn : Syntax) (typ : FieldType) (freq : Option FreqToken) : Frequency :=
  match syn, typ, freq with
  | .proto2, .map _ _, _ => .p2map
  | .proto2, _, some .required => .p2required
  | .proto2, _, some .optional => .p2optional
  | .proto2, _, some .repeated => .p2repeated
  | .proto2, _, none => .p2optional
  | .proto3, .map _ _, _ => .p3map
  | .proto3, _, some .required => .p3optional
  | .proto3, _, some .optional => .p3optional
  | .proto3, _, some .repeated => .p3repeated
  | .proto3, _, none => .p3default

/-- `v.parse::<bool>().expect(..)` of the first value with the key. -/
def boolOption (key : Str) (kvs : List (Str × Str)) : Res (Option Bool) :=
  match kvs.find? (fun p => p.1 == key) with
  | none => .ok none []
  | some (_, v) => if v = c! "true" then .ok (some true) [] else if v = c! "false" then .ok (some false) [] else .panic

/-- parser.rs 338-362, the closure of `field_generic`. -/
def makeField (freqFunc : Syntax → FieldType → Option FreqToken → Frequency) (syn : Syntax) (freq : Option FreqToken)
    (typ : FieldType) (name : Str) (number : Int) (kvs : List (Str × Str)) : Res Field :=
  match defaultCheck syn typ kvs with
  | .err => .err
  | .panic => .panic
  | .ok default _ =>
    match boolOption (c! "packed") kvs with
    | .err => .err
    | .panic => .panic
    | .ok packed _ =>
      match boolOption (c! "deprecated") kvs with
      | .err => .err
      | .panic => .panic
      | .ok deprecated _ =>
        .ok { name := name, frequency := freqFunc syn typ freq, typ := typ, number := number, default := default,
              packed := packed, boxed := false, deprecated := deprecated.getD false } []

/-- parser.rs 318-365, `field_generic`. -/
def fieldGeneric (freqFunc : Syntax → FieldType → Option FreqToken → Frequency) (syn : Syntax) : Parser Field :=
  mapRes (pair (opt (terminated frequency gap1)) (pair (terminated fieldType gap1)
    (pair (separatedPair word (delimited gap0 (tok (c! "=")) gap0) (alt [integer, hexInteger]))
      (delimited gap0 (many0 keyVal) (pair gap0 (tok (c! ";")))))))
    (fun p => makeField freqFunc syn p.1 p.2.1 p.2.2.1.1 p.2.2.1.2 p.2.2.2)

/-- parser.rs 367-369, `message_field`. -/
def messageField (syn : Syntax) : Parser Field := fieldGeneric toFrequency syn

/-- parser.rs 371-378, `oneof_message_field`. -/
def oneofMessageField (syn : Syntax) : Parser Field :=
  fieldGeneric (fun syn _ _ => match syn with | .proto2 => .p2required | .proto3 => .p3optional) syn

/-- parser.rs 380-400, `one_of`. -/
def oneOf (syn : Syntax) : Parser OneOf :=
  map (pair (preceded (pair (tok (c! "oneof")) gap1) word)
    (delimited (pair gap0 (tok (c! "{"))) (many1 (delimited gap0 (oneofMessageField syn) gap0)) (tok (c! "}"))))
    fun p => { name := p.1, fields := p.2 }

/-- parser.rs 561-566, `option_ignore`. -/
def optionIgnore : Parser Unit :=
  value () (delimited (pair (tok (c! "option")) gap1) (takeUntil (c! ";")) (tok (c! ";")))

/-- types.rs 2082-2086, `RpcFunctionDeclaration`. -/
structure RpcFunction where
  name : Str
  arg : Str
  ret : Str
deriving DecidableEq, Repr

/-- types.rs 2089-2092, `RpcService`. -/
structure RpcService where
  name : Str
  functions : List RpcFunction
deriving DecidableEq, Repr

/-- types.rs 1255-1260, `Extend`. -/
structure Extend where
  name : Str
  fields : List Field

/-- parser.rs 412-426, the end of an RPC declaration. -/
def rpcEnd : Parser Unit :=
  alt [value () (delimited (pair (tok (c! "{")) gap0) (many0 (alt [optionIgnore, value () (tok (c! ";"))]))
      (pair gap0 (tok (c! "}")))),
    value () (tok (c! ";"))]

/-- parser.rs 402-429, `rpc_function_declaration`. -/
def rpcFunction : Parser RpcFunction :=
  map (pair (delimited (pair (tok (c! "rpc")) gap1) word gap0)
    (pair (delimited (pair (tok (c! "(")) gap0) word (pair gap0 (tok (c! ")"))))
      (pair (delimited (pair gap1 (pair (tok (c! "returns")) (pair gap0 (pair (tok (c! "(")) gap0)))) word
          (pair gap0 (tok (c! ")"))))
        (preceded gap0 rpcEnd))))
    fun p => { name := p.1, arg := p.2.1, ret := p.2.2.1 }

/-- parser.rs 431-446, `rpc_service`. -/
def rpcService : Parser RpcService :=
  map (pair (delimited (pair (tok (c! "service")) gap1) word gap0)
    (delimited (tok (c! "{")) (many0 (delimited gap0 rpcFunction gap0)) (tok (c! "}"))))
    fun p => { name := p.1, functions := p.2 }

/-- parser.rs 509-522, the part of `enum_field` in brackets. -/
def enumDeprecated : Parser Unit :=
  value () (pair (tok (c! "[")) (pair (many0 (takeWhile1 isSpace)) (pair (tok (c! "deprecated"))
    (pair (many0 (takeWhile1 isSpace)) (pair (tok (c! "=")) (pair (many0 (takeWhile1 isSpace)) (pair word
      (pair (many0 (takeWhile1 isSpace)) (tok (c! "]"))))))))))

/-- parser.rs 497-527, `enum_field`. -/
def enumField : Parser (Str × Int) :=
  terminated (separatedPair word (pair gap0 (pair (tok (c! "=")) gap0)) (alt [hexInteger, integer]))
    (pair (many0 (alt [br, enumDeprecated])) (tok (c! ";")))

/-- parser.rs 529-535, `enum_event`; `none` is `Ignore`. -/
def enumEvent : Parser (Option (Str × Int)) :=
  alt [map enumField some, value none optionIgnore, value none br]

/-- The optional `;` after a declaration. -/
def optSemi : Parser Unit := value () (opt (pair gap0 (tok (c! ";"))))

/-- parser.rs 537-559, `enumerator`. -/
def enumerator : Parser Enumerator :=
  map (terminated (pair (delimited (pair (tok (c! "enum")) gap1) word gap0)
    (delimited (tok (c! "{")) (many0 enumEvent) (tok (c! "}")))) optSemi)
    fun p => { name := p.1, fields := p.2.filterMap id }

/-- parser.rs 29-40, `MessageEvent`. -/
inductive MessageEvent where
  | message (m : Message)
  | enumerator (e : Enumerator)
  | field (f : Field)
  | reservedNums (l : List Int)
  | reservedNames (l : List Str)
  | oneof (o : OneOf)
  | extensions
  | ignore

/-- parser.rs 479-490, one round of the loop. -/
def MessageEvent.apply (m : Message) : MessageEvent → Message
  | .field f => { m with fields := m.fields ++ [f] }
  | .reservedNums r => { m with reservedNums := some r }
  | .reservedNames r => { m with reservedNames := some r }
  | .message n => { m with messages := m.messages ++ [n] }
  | .enumerator e => { m with enums := m.enums ++ [e] }
  | .oneof o => { m with oneofs := m.oneofs ++ [o] }
  | .extensions => m
  | .ignore => m

/-- parser.rs 474-492, the closure of `message`. -/
def buildMessage (name : Str) (events : List MessageEvent) : Message :=
  events.foldl MessageEvent.apply { name := name, fields := [] }

/-- parser.rs 448-462, `message_event`, given `message`. -/
def messageEvent (msg : Parser Message) (syn : Syntax) : Parser MessageEvent :=
  alt [map reservedNums .reservedNums, map reservedNames .reservedNames, map (messageField syn) .field,
    map msg .message, map enumerator .enumerator, map (oneOf syn) .oneof, map extensions (fun _ => .extensions),
    value .ignore optionIgnore, value .ignore br]

/-- parser.rs 464-495, `message`, with messages nested less than `n` deep. -/
def messageN (syn : Syntax) : Nat → Parser Message
  | 0 => fun _ => .err
  | n + 1 =>
    map (terminated (pair (delimited (pair (tok (c! "message")) gap1) word gap0)
      (delimited (tok (c! "{")) (many0 (messageEvent (messageN syn n) syn)) (tok (c! "}")))) optSemi)
      fun p => buildMessage p.1 p.2

/-- parser.rs 464-495, `message` (each nested message consumes input). -/
def message (syn : Syntax) : Parser Message := fun s => messageN syn (s.length + 1) s

/-- parser.rs 568-585, `extend`. -/
def extend (syn : Syntax) : Parser Extend :=
  map (terminated (pair (delimited (pair (tok (c! "extend")) gap1) qualifiableName gap0)
    (delimited (tok (c! "{")) (many1 (delimited gap0 (messageField syn) gap0)) (tok (c! "}")))) optSemi)
    fun p => { name := p.1, fields := p.2 }

/-- parser.rs 587-591, `scan_syntax`. -/
def scanSyntax : Parser Syntax :=
  map (separatedList0 (many0 anychar) syntaxP) fun v => v.headD .proto2

/-- parser.rs 48-57, `Event`. -/
inductive Event where
  | syntax_ (s : Syntax)
  | import_ (path : Str)
  | package (p : Str)
  | message (m : Message)
  | enum (e : Enumerator)
  | service (r : RpcService)
  | extend (e : Extend)
  | ignore

/-- The result of parsing: the descriptor with its `import_paths`, `rpc_services` and `message_extends`. -/
structure File where
  desc : FileDescriptor := {}
  imports : List Str := []
  services : List RpcService := []
  extends_ : List Extend := []

/-- parser.rs 615-624, one round of the loop. -/
def Event.apply (d : File) : Event → File
  | .syntax_ s => { d with desc := { d.desc with syntax_ := s } }
  | .import_ p => { d with imports := d.imports ++ [p] }
  | .package p => { d with desc := { d.desc with package := p } }
  | .message m => { d with desc := { d.desc with messages := d.desc.messages ++ [m] } }
  | .enum e => { d with desc := { d.desc with enums := d.desc.enums ++ [e] } }
  | .service r => { d with services := d.services ++ [r] }
  | .extend e => { d with extends_ := d.extends_ ++ [e] }
  | .ignore => d

/-- parser.rs 600-611, one event of the file. -/
def fileEvent (syn : Syntax) : Parser Event :=
  alt [map syntaxP .syntax_, map importP .import_, map packageP .package, map (message syn) .message,
    map enumerator .enum, map rpcService .service, map (extend syn) .extend, value .ignore optionIgnore, value .ignore br]

/-- parser.rs 593-632, `file_descriptor`; `scan_syntax(input).unwrap()` panics on an error. -/
def fileDescriptor (input : Str) : Res File :=
  match scanSyntax input with
  | .ok syn _ => map (many0 (fileEvent syn)) (fun events => events.foldl Event.apply {}) input
  | .err => .panic
  | .panic => .panic

/-- types.rs 2667-2674, the start of `read_proto`: what is left after parsing must be blank. `none` is
`Error::TrailingGarbage` or a parse error. -/
def readProto (input : Str) : Res File :=
  match fileDescriptor input with
  | .ok f rem => if (trim rem).isEmpty then .ok f [] else .err
  | .err => .err
  | .panic => .panic

end QP.Pbrs.Parse
