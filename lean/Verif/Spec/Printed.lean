import Verif.Spec.Generated
/-!
# The text of a generated program

How structs, enums and functions that are given as syntax trees are written down, and what it means that a file has them.
-/

namespace QP.Rust
open QP.Pbrs

/-- `part` occurs in `file`. -/
def Doc.Has (file part : Doc) : Prop := part.str <:+: file.str

/-- `<'a>`, or nothing. -/
def lt (l : Bool) : Doc := if l then d!"<'a>" else .empty

/-- A field of a struct. -/
def fieldLine (deprecated : Bool) (name : Str) (t : Ty) : Doc :=
  (if deprecated then ln d!"    #[deprecated]" else .empty) ++ ln d!"    pub {name}: {t.doc},"

/-- A struct. -/
def structText (name : Str) (l : Bool) (deprecated : List Bool) (fields : List (Str × Ty)) : Doc :=
  ln d!"pub struct {name}{lt l} \{" ++ Doc.concat (List.zipWith (fun d f => fieldLine d f.1 f.2) deprecated fields) ++ ln d!"}"

/-- `impl Default`. -/
def defaultText (name : Str) (l : Bool) (fields : List (Str × Expr)) : Doc :=
  ln d!"impl{lt l} Default for {name}{lt l} \{" ++ ln d!"    fn default() -> Self \{" ++ ln d!"        Self \{"
    ++ Doc.concat (fields.map fun f => ln d!"            {f.1}: {f.2.doc},") ++ ln d!"        }" ++ ln d!"    }" ++ ln d!"}"

/-- `impl MessageRead`. -/
def readText (name : Str) (l : Bool) (body : Body) : Doc :=
  ln d!"impl<'a> MessageRead<'a> for {name}{lt l} \{"
    ++ ln d!"    fn from_reader(r: &mut BytesReader, bytes: &'a [u8]) -> Result<Self> \{" ++ body.doc ++ ln d!"    }" ++ ln d!"}"

/-- `impl MessageRead` of a struct without fields. -/
def unitReadText (name : Str) (body : Body) : Doc :=
  ln d!"impl<'a> MessageRead<'a> for {name} \{"
    ++ ln d!"    fn from_reader(r: &mut BytesReader, _: &[u8]) -> Result<Self> \{" ++ body.doc ++ ln d!"    }" ++ ln d!"}"

/-- `impl MessageWrite`. -/
def writeText (name : Str) (l : Bool) (size write : Body) : Doc :=
  ln d!"impl{lt l} MessageWrite for {name}{lt l} \{"
    ++ ln d!"    fn get_size(&self) -> usize \{" ++ size.doc ++ ln d!"    }" ++ Doc.nl
    ++ ln d!"    fn write_message<W: WriterBackend>(&self, w: &mut Writer<W>) -> Result<()> \{" ++ write.doc ++ ln d!"    }" ++ ln d!"}"

/-- The enum of a oneof. -/
def oneofText (name : Str) (l : Bool) (deprecated : List Bool) (variants : List (Str × Ty)) : Doc :=
  ln d!"#[derive(Debug, PartialEq, Clone)]" ++ ln d!"pub enum OneOf{name}{lt l} \{"
    ++ Doc.concat (List.zipWith (fun d v => (if d then ln d!"    #[deprecated]" else .empty) ++ ln d!"    {v.1}({v.2.doc}),") deprecated variants)
    ++ ln d!"    None," ++ ln d!"}"

/-- `impl Default` of the enum of a oneof. -/
def oneofDefaultText (name : Str) (l : Bool) : Doc :=
  ln d!"impl{lt l} Default for OneOf{name}{lt l} \{" ++ ln d!"    fn default() -> Self \{" ++ ln d!"        OneOf{name}::None" ++ ln d!"    }"
    ++ ln d!"}"

/-- Which of the fields of the struct are marked as deprecated. -/
def deprecations (cfg : Config) (m : Message) : List Bool := (shownFields cfg m).map (·.deprecated) ++ m.oneofs.map fun _ => false

/-- `file` has the struct `s` and its functions; `l`: it has a lifetime. Nothing is written for functions that are derived or
inherited. -/
structure HasStruct (file : Doc) (name : Str) (unit l : Bool) (deprecated : List Bool) (s : StructDef) : Prop where
  struct : Doc.Has file (if unit then ln d!"pub struct {name} \{ }" else structText name l deprecated s.fields)
  default : ∀ es, s.default = some es → Doc.Has file (defaultText name l es)
  write : ∀ b w, s.size = some b → s.write = some w → Doc.Has file (writeText name l b w)
  noWrite : s.size = none → s.write = none → Doc.Has file (ln d!"impl MessageWrite for {name} \{ }")
  read : Doc.Has file (if unit then unitReadText name s.read else readText name l s.read)

/-- `file` has the enum of a oneof. -/
structure HasOneof (file : Doc) (name : Str) (l : Bool) (deprecated : List Bool) (variants : List (Str × Ty)) : Prop where
  enum : Doc.Has file (oneofText name l deprecated variants)
  default : Doc.Has file (oneofDefaultText name l)

end QP.Rust
