import Verif.Model.Pbrs.Types
/-!
# Names: `pb-rs/src/keywords.rs`, and the passes of `types.rs` about names

A Rust `String` is a list of characters; `.` is ASCII, so byte positions of dots are character positions.
-/

namespace QP.Pbrs

/-- `str::split('.')`: at least one segment. -/
def splitDot : Str → List Str
  | [] => [[]]
  | c :: cs =>
    if c = '.' then [] :: splitDot cs
    else match splitDot cs with
      | [] => [[c]]
      | s :: ss => (c :: s) :: ss

/-- `[..].join(".")`. -/
def joinDot : List Str → Str
  | [] => []
  | [s] => s
  | s :: ss => s ++ '.' :: joinDot ss

/-- keywords.rs 1-77, `RUST_KEYWORDS`. -/
def rustKeywords : List Str := [
  "abstract", "alignof", "as", "become", "bool", "box", "Box", "break", "BytesReader", "const", "continue", "crate",
  "Cow", "Default", "do", "else", "enum", "Err", "extern", "f32", "f64", "false", "final", "fn", "for", "HashMap", "i32",
  "i64", "if", "impl", "in", "let", "loop", "match", "mod", "move", "mut", "None", "MessageWrite", "offsetof", "Ok",
  "Option", "override", "priv", "pub", "pure", "ref", "Result", "return", "self", "Self", "sizeof", "Some", "static",
  "str", "String", "struct", "super", "trait", "true", "type", "typeof", "u8", "u32", "u64", "unsafe", "unsized", "use",
  "Vec", "virtual", "where", "while", "Write", "Writer", "yield"].map String.toList

/-- keywords.rs 86-92, what happens to one segment. -/
def sanitizeSegment (s : Str) : Str := if rustKeywords.contains s then s ++ "_pb".toList else s

/-- keywords.rs 80-97, `sanitize_keyword`. -/
def sanitizeKeyword (ident : Str) : Str :=
  if !ident.contains '.' && rustKeywords.contains ident then ident ++ "_pb".toList
  else joinDot ((splitDot ident).map sanitizeSegment)

/-- `str::rfind('.')`, and the parts before and after it. -/
def rsplitDot : Str → Option (Str × Str)
  | [] => none
  | c :: cs =>
    match rsplitDot cs with
    | some (a, b) => some (c :: a, b)
    | none => if c = '.' then some ([], cs) else none

/-- types.rs 3157-3165, `split_package`. -/
def splitPackage (package : Str) : Str × Str :=
  if package.isEmpty then ([], [])
  else match rsplitDot package with
    | some (a, b) => (a, b)
    | none => ([], package)

end QP.Pbrs
