import Verif.Model.Pbrs.Doc
/-!
# Words of Rust, and white space

Neither list is taken from pb-rs: the keywords are those of the Rust reference, the names those that a generated file uses without a path,
the white space is the Unicode property `White_Space`.
-/

namespace QP.Pbrs

/-- The strict keywords of all editions. -/
def strictKeywords : List Str := [c! "as", c! "break", c! "const", c! "continue", c! "crate", c! "else", c! "enum", c! "extern", c! "false", c! "fn",
  c! "for", c! "if", c! "impl", c! "in", c! "let", c! "loop", c! "match", c! "mod", c! "move", c! "mut", c! "pub", c! "ref", c! "return", c! "self", c! "Self",
  c! "static", c! "struct", c! "super", c! "trait", c! "true", c! "type", c! "unsafe", c! "use", c! "where", c! "while"]

/-- The keywords since the edition 2018. -/
def newKeywords : List Str := [c! "async", c! "await", c! "dyn", c! "try"]

/-- The keywords reserved for the future in all editions. -/
def reservedKeywords : List Str := [c! "abstract", c! "become", c! "box", c! "do", c! "final", c! "macro", c! "override", c! "priv", c! "typeof", c! "unsized",
  c! "virtual", c! "yield"]

/-- Types, variants and traits that the generated code uses by their bare names. -/
def usedNames : List Str := [c! "bool", c! "i32", c! "i64", c! "u32", c! "u64", c! "u8", c! "f32", c! "f64", c! "str", c! "String", c! "Vec", c! "Option",
  c! "Some", c! "None", c! "Result", c! "Ok", c! "Err", c! "Box", c! "Cow", c! "HashMap", c! "Default", c! "BytesReader", c! "Writer", c! "MessageWrite"]

/-- Others that it uses by their bare names. -/
def otherNames : List Str := [c! "MessageRead", c! "MessageInfo", c! "WriterBackend", c! "PackedFixed", c! "KVMap", c! "From", c! "TryFrom", c! "Clone"]

/-- Unicode `White_Space`. -/
def WhiteSpace (c : Char) : Prop :=
  c.toNat ∈ [0x9, 0xA, 0xB, 0xC, 0xD, 0x20, 0x85, 0xA0, 0x1680, 0x2000, 0x2001, 0x2002, 0x2003, 0x2004, 0x2005, 0x2006, 0x2007, 0x2008, 0x2009, 0x200A,
    0x2028, 0x2029, 0x202F, 0x205F, 0x3000]

end QP.Pbrs
