import Verif.Model.Pbrs.Emit
import Verif.Model.Pbrs.Imports
import Verif.Model.Pbrs.ModFile
/-!
# A run of pb-rs: `ConfigBuilder` (`pb-rs/src/lib.rs`) and `write_proto`, `run` (`pb-rs/src/types.rs` 2572-2658)

The disk is a set of directories and a function from paths to texts. Paths are Unix paths, compared as texts; the empty path is
the working directory, which exists. Reading and writing a file succeeds if it is there (or its directory is); disks are not
full, permissions are not modelled. What pb-rs prints on the terminal is left out.
-/

namespace QP.Pbrs
open Parse

/-- Files and directories. -/
structure Disk where
  file : Str → Option Str
  dir : Str → Bool

namespace Disk

/-- `Path::is_dir`. -/
def isDir (d : Disk) (p : Str) : Bool := p.isEmpty || d.dir p

/-- `Path::exists`. -/
def exists_ (d : Disk) (p : Str) : Bool := (d.file p).isSome || d.isDir p

/-- Writing a file. -/
def put (d : Disk) (p t : Str) : Disk := { d with file := fun q => if q = p then some t else d.file q }

/-- `create_dir_all`: the directory and all above it. -/
def mkdirs (d : Disk) (p : Str) : Disk := { d with dir := fun q => d.dir q || q == p || (q ++ ['/']).isPrefixOf p }

end Disk

/-- Why a run fails. -/
inductive RunError where
  /-- before printing: types.rs 2581-2602 -/
  | pbrs (e : PbrsError)
  /-- while printing -/
  | emit (e : EmitError)
  /-- `Error::Io` -/
  | io
  /-- a panic -/
  | panic
  /-- lib.rs 88-90, `Error::NoProto` -/
  | noProto
  /-- lib.rs 92-96, `Error::InputFile` -/
  | inputFile (p : Str)
  /-- lib.rs 99, `Error::OutputMultipleInputs` -/
  | outputMultipleInputs
  /-- lib.rs 102-104, `Error::OutputDirectory` -/
  | outputDirectory (p : Str)
  /-- lib.rs 107, `Error::OutputAndOutputDir` -/
  | outputAndOutputDir

/-- types.rs 2538-2557, a `Config`: the options of `Config` here, and what was left out there. -/
structure Job where
  cfg : Config := {}
  inFile : Str
  outFile : Str
  search : List Str := []
  noOutput : Bool := false

/-- types.rs 2609-2618, the name of the output file, from the package of the printed descriptor. -/
def outName (package outFile : Str) : Str :=
  let last := (splitPackage package).2
  (if last.isEmpty then getFileStem outFile else sanitizeKeyword last) ++ c! ".rs"

/-- types.rs 2626, the directories of the package: none, or the parts of the prefix. -/
def packageDirs (package : Str) : List Str :=
  if (splitPackage package).1.isEmpty then [] else splitDot (splitPackage package).1

/-- types.rs 2619-2634, the path of the output file: the directories of the package are inserted. -/
def outPath (package outFile : Str) : Str :=
  joinPath ((packageDirs package).foldl joinPath (parentPath outFile)) (outName package outFile)

/-- The file `mod.rs` beside a path: types.rs 3175-3177. -/
def modPath (p : Str) : Str := joinPath (parentPath p) (c! "mod.rs")

/-- types.rs 3170-3215, `update_mod_file` on a disk; `none` is a panic. -/
def Disk.updateMod (d : Disk) (p : Str) : Option Disk :=
  match updateModFile (d.file (modPath p)) (fileStem p) with
  | some (some t) => some (d.put (modPath p) t)
  | _ => none

/-- types.rs 2626-2632, the loop over the directories of the package; the disk is that at the end or at the panic. -/
def enterDirs : Disk → Str → List Str → Except RunError Str × Disk
  | d, out, [] => (.ok out, d)
  | d, out, p :: ps =>
    let out := joinPath out p
    if d.exists_ out then enterDirs d out ps
    else
      match (d.mkdirs out).updateMod out with
      | none => (.error .panic, d.mkdirs out)
      | some d => enterDirs d out ps

/-- The number of services of a file. -/
def servicesOf (text : Str) : Nat :=
  match readProto text with
  | .ok F _ => F.services.length
  | _ => 0

/-- types.rs 2580-2658, `write_proto`, with at most `n` nested imports. `junk` is what is in the output file when printing fails:
what was printed before, as far as it was flushed. -/
def writeProto (junk : Str) (n : Nat) (j : Job) (d : Disk) : Except RunError Unit × Disk :=
  match compileFile d.file j.search (typePath j.cfg) j.cfg n j.inFile with
  | .error e => (.error (.pbrs e), d)
  | .ok D =>
    let D := D.printed j.cfg
    let services := servicesOf ((d.file j.inFile).getD [])
    match enterDirs d (parentPath j.outFile) (packageDirs D.package) with
    | (.error e, d) => (.error e, d)
    | (.ok dir, d) =>
      let out := joinPath dir (outName D.package j.outFile)
      if j.noOutput then (.ok (), d)
      else if d.isDir out || !d.isDir (parentPath out) then (.error .io, d)
      else
        match D.write j.cfg (splitSlash j.inFile).2 services with
        | .error e => (.error (.emit e), d.put out junk)
        | .ok text =>
          match (d.put out text.str).updateMod out with
          | none => (.error .panic, d.put out text.str)
          | some d => (.ok (), d)

/-- types.rs 2573-2578, `run`. -/
def run (junk : Str) (n : Nat) : List Job → Disk → Except RunError Unit × Disk
  | [], d => (.ok (), d)
  | j :: js, d =>
    match writeProto junk n j d with
    | (.error e, d) => (.error e, d)
    | (.ok (), d) => run junk n js d

/-- lib.rs 66-127, `ConfigBuilder::new`: what is given on the command line. -/
structure Invocation where
  inFiles : List Str
  output : Option Str := none
  outputDir : Option Str := none
  includePaths : List Str := []
  cfg : Config := {}
  noOutput : Bool := false

/-- `Path::with_extension("rs")` of the path of a file. -/
def withRs (p : Str) : Str := (splitSlash p).1 ++ fileStem p ++ c! ".rs"

/-- lib.rs 87-126, the checks of `ConfigBuilder::new`; the result is `out_file`. -/
def Invocation.check (i : Invocation) (d : Disk) : Except RunError (Option Str) :=
  if i.inFiles.isEmpty then .error .noProto
  else match i.inFiles.find? (fun f => !d.exists_ f) with
    | some f => .error (.inputFile f)
    | none =>
      match i.output, i.outputDir with
      | some o, none => if i.inFiles.length > 1 then .error .outputMultipleInputs else .ok (some o)
      | none, some o => if d.isDir o then .ok (some o) else .error (.outputDirectory o)
      | some _, some _ => .error .outputAndOutputDir
      | none, none => .ok none

/-- lib.rs 111-114, the include paths: the working directory comes last. -/
def Invocation.search (i : Invocation) : List Str :=
  if i.includePaths.isEmpty || !i.includePaths.contains ['.'] then i.includePaths ++ [['.']] else i.includePaths

/-- lib.rs 205-247, `build`. -/
def Invocation.jobs (i : Invocation) (d : Disk) (outFile : Option Str) : List Job :=
  i.inFiles.map fun f =>
    { cfg := i.cfg, inFile := f, search := i.search, noOutput := i.noOutput
      outFile := match outFile with
        | some o => if d.isDir o then joinPath o (splitSlash (withRs f)).2 else o
        | none => withRs f }

/-- main.rs 114-153: everything. -/
def Invocation.run (i : Invocation) (junk : Str) (n : Nat) (d : Disk) : Except RunError Unit × Disk :=
  match i.check d with
  | .error e => (.error e, d)
  | .ok o => Pbrs.run junk n (i.jobs d o) d

/-- The text that pb-rs generates for a file, if it succeeds. -/
def generate (fs : Files) (search : List Str) (cfg : Config) (n : Nat) (file : Str) : Option Str :=
  match compileFile fs search (typePath cfg) cfg n file with
  | .error _ => none
  | .ok D =>
    match (D.printed cfg).write cfg (splitSlash file).2 (servicesOf ((fs file).getD [])) with
    | .error _ => none
    | .ok t => some t.str

end QP.Pbrs
