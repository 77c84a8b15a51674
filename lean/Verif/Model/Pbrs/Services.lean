import Verif.Model.Pbrs.Run
/-!
# The hooks of a `Config`: the service generator and the custom includes (`pb-rs/src/types.rs` 2094-2100, 2549-2550, 3134-3141)

A program that calls pb-rs from its build script can put two things into a `Config`: a function that is called for every service of
the file, and lines that are added to the `use` lines. `Model/Pbrs/Run.lean` is a run in which neither is used (as with the command line).
The function may have effects of its own (it is a closure): they are changes of a state `σ`, about which nothing is assumed.
-/

namespace QP.Pbrs
open Parse

/-- types.rs 2549-2550 and 2100: the fields `custom_rpc_generator` and `custom_includes`. The function gets the service and writes a text,
or fails (`none`; what it may have written before it failed is part of the `junk` of `writeProtoWith`). -/
structure Hooks (σ : Type) where
  rpc : RpcService → σ → Option Str × σ
  includes : List Str := []

/-- lib.rs 231-232: what `ConfigBuilder::build` puts there. -/
def Hooks.default (σ : Type) : Hooks σ := { rpc := fun _ s => (some [], s) }

/-- types.rs 3134-3141, `write_rpc_services` (with `write_definition`, types.rs 2094-2098): an empty line and the text of the generator
for each service, up to the first failure. -/
def writeServices {σ : Type} (H : Hooks σ) : List RpcService → σ → Option Str × σ
  | [], s => (some [], s)
  | r :: rs, s =>
    match H.rpc r s with
    | (none, s) => (none, s)
    | (some t, s) =>
      match writeServices H rs s with
      | (none, s) => (none, s)
      | (some ts, s) => (some ('\n' :: t ++ ts), s)

namespace FileDescriptor

/-- types.rs 3068-3096, `write_uses`, with the lines of `custom_includes` (3092-3094): they come after the return of line 3077. -/
def writeUsesWith (D : FileDescriptor) (cfg : Config) (includes : List Str) : Emit Doc :=
  if D.messages.all Message.isUnit then D.writeUses cfg
  else do
    let uses ← D.writeUses cfg
    pure (uses ++ Doc.concat (includes.map fun i => ln (Doc.lit i)))

/-- types.rs 3021-3034, `write` up to the services. -/
def writeBefore (D : FileDescriptor) (cfg : Config) (filename : Str) (includes : List Str) : Emit Doc := do
  let headers := if cfg.headers then writeHeaders cfg filename else .empty
  let uses ← D.writeUsesWith cfg includes
  let enums ← D.writeEnums
  let messages ← D.writeMessages cfg
  pure (headers ++ Doc.nl ++ uses ++ D.writeImports ++ enums ++ messages)

end FileDescriptor

/-- Why a run with hooks fails. -/
inductive HookError where
  | run (e : RunError)
  /-- the generator of the program returned an error (types.rs 3138) -/
  | rpc

/-- The services of a file (types.rs 2568, parser.rs 621). -/
def servicesIn (text : Str) : List RpcService :=
  match readProto text with
  | .ok F _ => F.services
  | _ => []

/-- types.rs 2580-2658, `write_proto`, as `writeProto`, with hooks. -/
def writeProtoWith {σ : Type} (H : Hooks σ) (junk : Str) (n : Nat) (j : Job) (d : Disk) (s : σ) : Except HookError Unit × Disk × σ :=
  match compileFile d.file j.search (typePath j.cfg) j.cfg n j.inFile with
  | .error e => (.error (.run (.pbrs e)), d, s)
  | .ok D =>
    let D := D.printed j.cfg
    let services := servicesIn ((d.file j.inFile).getD [])
    match enterDirs d (parentPath j.outFile) (packageDirs D.package) with
    | (.error e, d) => (.error (.run e), d, s)
    | (.ok dir, d) =>
      let out := joinPath dir (outName D.package j.outFile)
      if j.noOutput then (.ok (), d, s)
      else if d.isDir out || !d.isDir (parentPath out) then (.error (.run .io), d, s)
      else
        match D.writeBefore j.cfg (splitSlash j.inFile).2 H.includes with
        | .error e => (.error (.run (.emit e)), d.put out junk, s)
        | .ok text =>
          match writeServices H services s with
          | (none, s) => (.error .rpc, d.put out junk, s)
          | (some ts, s) =>
            match (d.put out (text.str ++ ts ++ ['\n'])).updateMod out with
            | none => (.error (.run .panic), d.put out (text.str ++ ts ++ ['\n']), s)
            | some d => (.ok (), d, s)

/-- types.rs 2573-2578, `run`, with hooks. -/
def runWith {σ : Type} (junk : Str) (n : Nat) : List (Job × Hooks σ) → Disk → σ → Except HookError Unit × Disk × σ
  | [], d, s => (.ok (), d, s)
  | (j, H) :: js, d, s =>
    match writeProtoWith H junk n j d s with
    | (.error e, d, s) => (.error e, d, s)
    | (.ok (), d, s) => runWith junk n js d s

end QP.Pbrs
