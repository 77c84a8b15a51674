import Verif.Model.Pbrs.Parser
import Verif.Model.Pbrs.Passes
/-!
# Reading a schema from files: `read_proto`, `fetch_imports`, `get_file_stem` (`pb-rs/src/types.rs` 1378-1389, 2667-2770, 3219-3230)

Paths are Unix paths. The file system is a function from paths to texts: it does not change while pb-rs reads, a path exists
iff it can be read, and all files are UTF-8. The fields `path` and `import` of messages and enums, which nothing uses, are
dropped.
-/

namespace QP.Pbrs
open Parse

/-- The files that can be read. -/
abbrev Files := Str → Option Str

/-- `Path::is_absolute`. -/
def isAbsolute (p : Str) : Bool := p.head? == some '/'

/-- `Path::join`. -/
def joinPath (a b : Str) : Str :=
  if isAbsolute b then b
  else if a.isEmpty then b
  else if a.getLast? = some '/' then a ++ b
  else a ++ '/' :: b

/-- The part of a path up to the last `/`, and the last component. -/
def splitSlash (p : Str) : Str × Str :=
  ((p.reverse.dropWhile (· ≠ '/')).reverse, (p.reverse.takeWhile (· ≠ '/')).reverse)

/-- `Path::parent` of the path of a file (a path that does not end in `/`): everything before the last `/`, or the empty path.
(For the root directory this is not what Rust does.) -/
def parentPath (p : Str) : Str :=
  let d := (splitSlash p).1
  if d = ['/'] then d else if d.getLast? = some '/' then d.dropLast else d

/-- `Path::file_stem` of the path of a file: the last component without its extension. -/
def fileStem (p : Str) : Str :=
  match rsplitDot (splitSlash p).2 with
  | some (a, _) => if a.isEmpty then (splitSlash p).2 else a
  | none => (splitSlash p).2

/-- types.rs 3219-3230, `get_file_stem`: the module of a file without a package. Simplification: `is_alphanumeric` is taken to
accept all characters that are not ASCII. -/
def getFileStem (p : Str) : Str :=
  sanitizeKeyword ((fileStem p).map fun c => if isAlpha c || isDigit c || 128 ≤ c.toNat then c else '_')

/-- Why reading a schema fails. -/
inductive ReadError where
  /-- `Error::Io`: the file does not exist -/
  | io (path : Str)
  /-- `Error::Nom`, `Error::TrailingGarbage` -/
  | syntax_ (path : Str)
  /-- `Error::InvalidImport` -/
  | invalidImport (import_ : Str)
  /-- a panic of the parser -/
  | panic
  /-- the recursion of `read_proto` has not returned after as many nested calls as allowed -/
  | depth
deriving DecidableEq

mutual
/-- types.rs 1378-1389, `Message::set_imported`. -/
def Message.setImported : Message → Message
  | ⟨name, fields, oneofs, nums, names, _, pkg, messages, enums, module, index⟩ =>
    ⟨name, fields, oneofs.map (fun o => { o with imported := true }), nums, names, true, pkg,
      Message.setImportedAll messages, enums.map (fun e => { e with imported := true }), module, index⟩
/-- types.rs 1383-1385, the nested messages. -/
def Message.setImportedAll : List Message → List Message
  | [] => []
  | m :: ms => m.setImported :: Message.setImportedAll ms
end

/-- types.rs 2742-2755, what happens to a message of an imported file with package `package` and module `module`. -/
def Message.adopt (package module : Str) (m : Message) : Message :=
  (if m.package.isEmpty then m.setPackage package module else m).setImported

/-- types.rs 2756-2768, the same for an enum. -/
def Enumerator.adopt (package module : Str) (e : Enumerator) : Enumerator :=
  { (if e.package.isEmpty then e.setPackage package module else e) with imported := true }

/-- The texts between the slashes. -/
def splitSlashes : Str → List Str
  | [] => [[]]
  | c :: cs =>
    if c = '/' then [] :: splitSlashes cs
    else match splitSlashes cs with
      | [] => [[c]]
      | s :: ss => (c :: s) :: ss

/-- A directory (empty, or with a final slash) without empty components and components `.`. -/
def normDir (d : Str) : Str :=
  (if isAbsolute d then ['/'] else []) ++ ((splitSlashes d).filter fun c => c ≠ [] ∧ c ≠ ['.']).flatMap (· ++ ['/'])

/-- A path with `a/./b` and `a//b` written as `a/b`: Rust's `Path::parent` and the system do not tell the difference. -/
def normPath (p : Str) : Str := normDir (splitSlash p).1 ++ (splitSlash p).2

/-- types.rs 2721-2730, the place where the include path `dir` looks for the import `imp` of `file`. -/
def candidate (file imp dir : Str) : Str :=
  normPath (if isAbsolute dir then joinPath dir imp else joinPath (joinPath (parentPath file) dir) imp)

/-- types.rs 2716-2741, the file that the import `imp` of `file` names: the first one that exists. -/
def findImport (fs : Files) (search : List Str) (file imp : Str) : Option Str :=
  (search.map (candidate file imp)).find? fun p => (fs p).isSome

/-- types.rs 2712-2769, the loop of `fetch_imports` over the imports of `file`; `read` is `read_proto`. -/
def fetchImports (fs : Files) (search : List Str) (read : Str → Except ReadError FileDescriptor) (file : Str) :
    List Str → FileDescriptor → Except ReadError FileDescriptor
  | [], D => .ok D
  | imp :: imps, D =>
    match findImport fs search file imp with
    | none => .error (.invalidImport imp)
    | some p =>
      match read p with
      | .error e => .error e
      | .ok f =>
        fetchImports fs search read file imps
          { D with messages := D.messages ++ f.messages.map (Message.adopt f.package f.module)
                   enums := D.enums ++ f.enums.map (Enumerator.adopt f.package f.module) }

/-- types.rs 2667-2710, what is read from one file, before its imports: its declarations with packages and modules. -/
def parseFile (file text : Str) : Except ReadError (FileDescriptor × List Str) :=
  match readProto text with
  | .panic => .error .panic
  | .err => .error (.syntax_ file)
  | .ok F _ =>
    let D := F.desc
    let D := { D with module := if D.package.isEmpty then getFileStem file else D.package }
    .ok (D.setPackages, F.imports)

/-- types.rs 2667-2694, `read_proto`, with at most `n` nested calls. -/
def readProtoFile (fs : Files) (search : List Str) : Nat → Str → Except ReadError FileDescriptor
  | 0, _ => .error .depth
  | n + 1, file =>
    match fs file with
    | none => .error (.io file)
    | some text =>
      match parseFile file text with
      | .error e => .error e
      | .ok (D, imports) => fetchImports fs search (readProtoFile fs search n) file imports D

/-- Why `write_proto` fails before it prints. -/
inductive PbrsError where
  | read (e : ReadError)
  | compile (e : CompileError)

/-- types.rs 2580-2602, `write_proto` up to printing. -/
def compileFile (fs : Files) (search : List Str) (path : FileDescriptor → FieldType → Str) (cfg : Config) (n : Nat)
    (file : Str) : Except PbrsError FileDescriptor :=
  match readProtoFile fs search n file with
  | .error e => .error (.read e)
  | .ok D =>
    match ({ D with owned := cfg.owned } : FileDescriptor).compile path cfg with
    | .error e => .error (.compile e)
    | .ok D => .ok D

end QP.Pbrs
