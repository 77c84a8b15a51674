import Verif.Model.Pbrs.Cli
import Verif.Spec.Search
import Verif.Spec.Run
import Verif.Proofs.Idents
/-!
# What a command line asks for
-/

namespace QP.Pbrs
open Parse

/-- The command line is one that the help text allows. -/
structure Allowed (i : Invocation) (d : Disk) : Prop where
  inputs : i.inFiles ≠ []
  there : ∀ f ∈ i.inFiles, d.exists_ f = true
  notBoth : i.output = none ∨ i.outputDir = none
  single : i.output ≠ none → i.inFiles.length = 1
  dir : ∀ o, i.outputDir = some o → d.isDir o = true

/-- What the errors of `ConfigBuilder::new` say. -/
def Complaint (i : Invocation) (d : Disk) : RunError → Prop
  | .noProto => i.inFiles = []
  | .inputFile f => f ∈ i.inFiles ∧ d.exists_ f = false
  | .outputMultipleInputs => i.output ≠ none ∧ 1 < i.inFiles.length
  | .outputDirectory o => i.outputDir = some o ∧ d.isDir o = false
  | .outputAndOutputDir => i.output ≠ none ∧ i.outputDir ≠ none
  | _ => False

/-- `p` is the file `name` in the directory in which `f` is. -/
structure Sibling (f name p : Str) : Prop where
  root : isAbsolute p = isAbsolute f
  parts : parts p = (parts f).dropLast ++ [name]

/-- The file name of `f` is `stem` and the extension `ext`. -/
structure HasName (f stem ext : Str) : Prop where
  nonempty : stem ≠ []
  name : (parts f).getLast? = some (stem ++ '.' :: ext)
  file : FilePath f

/-- The file name of `f` without its extension is `stem`. -/
def Stem (f stem : Str) : Prop := ∃ ext, HasName f stem ext ∧ '.' ∉ ext

/-- Where the help text says that the code for `f`, whose file name is `stem` and an extension, goes: to `--output`, to `stem.rs` in
`--output_directory`, or to `stem.rs` beside `f`. -/
def Promised (i : Invocation) (f stem p : Str) : Prop :=
  match i.output, i.outputDir with
  | some o, _ => SamePlace p o
  | none, some o => FileIn o (stem ++ c! ".rs") p
  | none, none => Sibling f (stem ++ c! ".rs") p

/-- A file name that is an identifier and no keyword. -/
structure PlainStem (s : Str) : Prop where
  chars : ∀ c ∈ s, IdentChar c
  keyword : s ∉ rustKeywords

end QP.Pbrs
