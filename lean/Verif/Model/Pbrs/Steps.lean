import Verif.Model.Pbrs.Run
/-!
# A run of pb-rs, system call by system call (`write_proto` and `update_mod_file`, `pb-rs/src/types.rs` 2580-2658 and 3170-3215)

`Model/Pbrs/Run.lean` says what a run does that is alone on the disk and has no trouble. Here a run is a program that makes one system call
after the other, so that one can say what happens when several runs are under way at the same time, when a run is killed, or when a
write fails. That the two agree is a theorem (`solo`, `Proofs/Steps.lean`).

Simplifications: the `.proto` files are read in one step (pb-rs never changes them, see C71), so is a `mod.rs`; positions in a file are
counted in characters; what `File::create` checks (no directory of that name, and its directory is there) are steps of their own.
-/

namespace QP.Pbrs
open Parse

/-- What is left to do. The argument of a continuation is the answer of the system: for calls that write, whether they succeeded. -/
inductive Prog where
  /-- the end -/
  | done (r : Except RunError Unit)
  /-- reading the `.proto` files -/
  | files (k : Files → Prog)
  /-- `Path::exists` -/
  | exists_ (p : Str) (k : Bool → Prog)
  /-- is it a directory? (`File::create`) -/
  | isDir (p : Str) (k : Bool → Prog)
  /-- `create_dir_all` -/
  | mkdirs (p : Str) (k : Bool → Prog)
  /-- `File::open`, and reading it -/
  | open_ (p : Str) (k : Option Str → Prog)
  /-- `File::create`: the file is empty afterwards -/
  | create (p : Str) (k : Bool → Prog)
  /-- `write` to a file that was opened by `File::create`, at the position of the file descriptor -/
  | write (p : Str) (pos : Nat) (t : Str) (k : Bool → Prog)
  /-- `write` to a file that was opened with `append(true)` -/
  | append (p : Str) (t : Str) (k : Bool → Prog)

/-- Writing at a position: what was there is overwritten; a gap is filled with zeros. -/
def writeAt (old : Str) (pos : Nat) (t : Str) : Str :=
  old.take pos ++ List.replicate (pos - old.length) (Char.ofNat 0) ++ t ++ old.drop (pos + t.length)

/-- One system call. `fails`: the call goes wrong (if it writes). -/
def Prog.step (fails : Bool) (d : Disk) : Prog → Prog × Disk
  | .done r => (.done r, d)
  | .files k => (k d.file, d)
  | .exists_ p k => (k (d.exists_ p), d)
  | .isDir p k => (k (d.isDir p), d)
  | .mkdirs p k => if fails then (k false, d) else (k true, d.mkdirs p)
  | .open_ p k => (k (d.file p), d)
  | .create p k => if fails then (k false, d) else (k true, d.put p [])
  | .write p pos t k => if fails then (k false, d) else (k true, d.put p (writeAt ((d.file p).getD []) pos t))
  | .append p t k => if fails then (k false, d) else (k true, d.put p ((d.file p).getD [] ++ t))

/-- A run that is alone and without trouble. -/
def Prog.run : Prog → Disk → Except RunError Unit × Disk
  | .done r, d => (r, d)
  | .files k, d => (k d.file).run d
  | .exists_ p k, d => (k (d.exists_ p)).run d
  | .isDir p k, d => (k (d.isDir p)).run d
  | .mkdirs p k, d => (k true).run (d.mkdirs p)
  | .open_ p k, d => (k (d.file p)).run d
  | .create p k, d => (k true).run (d.put p [])
  | .write p pos t k, d => (k true).run (d.put p (writeAt ((d.file p).getD []) pos t))
  | .append p t k, d => (k true).run (d.put p ((d.file p).getD [] ++ t))

/-- `write_fmt` writes the parts of a format string one after the other. The result is the position, or that a write failed. -/
def writeParts (p : Str) : Nat → List Str → (Option Nat → Prog) → Prog
  | pos, [], k => k (some pos)
  | pos, t :: ts, k => .write p pos t fun ok => if ok then writeParts p (pos + t.length) ts k else k none

/-- The same for a file that is opened for appending. -/
def appendParts (p : Str) : List Str → (Bool → Prog) → Prog
  | [], k => k true
  | t :: ts, k => .append p t fun ok => if ok then appendParts p ts k else k false

/-- types.rs 3212, the parts of `writeln!(f, "pub mod {};", name)`. -/
def modParts (name : Str) : List Str := [PUB_MOD, name, [';', '\n']]

/-- types.rs 3170-3215, `update_mod_file`. The panic is that of the slice. -/
def updateModSteps (p : Str) (k : Except RunError Unit → Prog) : Prog :=
  .open_ (modPath p) fun
    | none => .create (modPath p) fun ok =>
      -- types.rs 3206-3208: `writeln!(f, "{}", MAGIC_HEADER)`
      if ok then writeParts (modPath p) 0 ([MAGIC_HEADER, ['\n']] ++ modParts (fileStem p)) fun r => if r.isSome then k (.ok ()) else k (.error .io)
      else k (.error .io)
    | some text =>
      match isPresent (fileStem p) (lines text) with
      | none => k (.error .panic)
      | some true => k (.ok ())
      | some false => appendParts (modPath p) (modParts (fileStem p)) fun ok => if ok then k (.ok ()) else k (.error .io)

/-- types.rs 2626-2632. -/
def enterDirsSteps : Str → List Str → (Except RunError Str → Prog) → Prog
  | out, [], k => k (.ok out)
  | out, p :: ps, k =>
    .exists_ (joinPath out p) fun there =>
      if there then enterDirsSteps (joinPath out p) ps k
      else .mkdirs (joinPath out p) fun ok =>
        if ok then updateModSteps (joinPath out p) fun r => match r with
          | .error e => k (.error e)
          | .ok () => enterDirsSteps (joinPath out p) ps k
        else k (.error .io)

/-- types.rs 2655-2657: `File::create`, `desc.write` through a `BufWriter`, and `update_mod_file`. `cut` says which parts of the text the
`BufWriter` hands on while the text is written; the rest is written when the `BufWriter` is dropped, at the end of the function, and the
result of that is ignored. (A failing write in between gives an error, and the rest is dropped; what `BufWriter` tries to write then is
left out.) -/
def writeOut (cut : Str → List Str × Str) (out text : Str) : Prog :=
  .create out fun ok =>
    if ok then writeParts out 0 (cut text).1 fun
      | none => .done (.error .io)
      | some pos => updateModSteps out fun r => .write out pos (cut text).2 fun _ => .done r
    else .done (.error .io)

/-- types.rs 2580-2658, `write_proto`. -/
def Job.steps (cut : Str → List Str × Str) (junk : Str) (n : Nat) (j : Job) : Prog :=
  .files fun fs =>
    match compileFile fs j.search (typePath j.cfg) j.cfg n j.inFile with
    | .error e => .done (.error (.pbrs e))
    | .ok D =>
      let D := D.printed j.cfg
      let services := servicesOf ((fs j.inFile).getD [])
      enterDirsSteps (parentPath j.outFile) (packageDirs D.package) fun
        | .error e => .done (.error e)
        | .ok dir =>
          let out := joinPath dir (outName D.package j.outFile)
          if j.noOutput then .done (.ok ())
          else .isDir out fun a => .isDir (parentPath out) fun b =>
            if a || !b then .done (.error .io)
            else
              match D.write j.cfg (splitSlash j.inFile).2 services with
              | .error e => .create out fun ok => if ok then .write out 0 junk fun _ => .done (.error (.emit e)) else .done (.error .io)
              | .ok text => writeOut cut out text.str

/-- Several runs under way on one disk. In each turn the scheduler lets one of them make a system call, and says whether it fails. -/
def turns : List Prog × Disk → List (Nat × Bool) → List Prog × Disk
  | s, [] => s
  | (ps, d), (i, fails) :: ts =>
    match ps[i]? with
    | none => turns (ps, d) ts
    | some p => turns (ps.set i (p.step fails d).1, (p.step fails d).2) ts

end QP.Pbrs
