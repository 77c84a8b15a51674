import Verif.Model.Pbrs.Run
/-!
# The command line: `pb-rs/src/main.rs`

What `clap` makes of the arguments is given: `Matches`. Every option takes at most one value (main.rs 14-112: none but `INPUT` is
`multiple`), and `--include` at most one directory. Paths are the paths of files: they do not end in `/`, `/.` or `..`.
-/

namespace QP.Pbrs
open Parse

/-- main.rs 10-112, the arguments. -/
structure Matches where
  input : List Str
  output : Option Str := none
  outputDir : Option Str := none
  includePath : Option Str := none
  singleMod : Bool := false
  noOutput : Bool := false
  cycle : Bool := false
  noHeaders : Bool := false
  customStructDerive : Option Str := none
  customRepr : Option Str := none
  dontUseCow : Bool := false
  owned : Bool := false
  nostd : Bool := false
  hashbrown : Bool := false
  genInfo : Bool := false
  addDeprecatedFields : Bool := false
  generateGetters : Bool := false

/-- `Path::extension` of the path of a file. -/
def extension (p : Str) : Option Str :=
  match rsplitDot (splitSlash p).2 with
  | some (a, b) => if a.isEmpty then none else some b
  | none => none

/-- main.rs 156-166, `extension_matches`. -/
def extensionMatches (p expected : Str) : Bool := extension p == some expected

/-- `str::split(',')`. -/
def splitComma : Str → List Str
  | [] => [[]]
  | c :: cs =>
    if c = ',' then [] :: splitComma cs
    else match splitComma cs with
      | [] => [[c]]
      | s :: ss => (c :: s) :: ss

/-- main.rs 10-112, what `clap` checks: `INPUT` is required, and the two validators. -/
def Matches.accepted (m : Matches) : Bool :=
  !m.input.isEmpty && m.input.all (extensionMatches · (c! "proto")) &&
    (match m.output with | some o => extensionMatches o (c! "rs") | none => true)

/-- main.rs 114-151, what is passed on to `ConfigBuilder` (lib.rs 129-205, its setters). -/
def Matches.invocation (m : Matches) : Invocation :=
  { inFiles := m.input
    output := m.output
    outputDir := m.outputDir
    includePaths := m.includePath.toList
    noOutput := m.noOutput
    cfg :=
      { singleModule := m.singleMod
        errorCycle := m.cycle
        headers := !m.noHeaders
        dontUseCow := m.dontUseCow
        customStructDerive := splitComma (m.customStructDerive.getD [])
        nostd := m.nostd
        hashbrown := m.hashbrown
        genInfo := m.genInfo
        customRepr := m.customRepr
        owned := m.owned
        addDeprecatedFields := m.addDeprecatedFields
        generateGetters := m.generateGetters } }

/-- main.rs 5-154 and 176-189: the exit code, and the disk. `clap` exits before anything is read if it does not accept the
arguments. Simplification: the exit code of a panic or of a stack overflow is another one than 1. -/
def Matches.main (m : Matches) (junk : Str) (n : Nat) (d : Disk) : Nat × Disk :=
  if m.accepted then
    match m.invocation.run junk n d with
    | (.ok (), d) => (0, d)
    | (.error _, d) => (1, d)
  else (1, d)

end QP.Pbrs
