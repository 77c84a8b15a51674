import Verif.Model.Pbrs.Steps
import Verif.Spec.Run
/-!
# Runs of pb-rs at the same time
-/

namespace QP.Pbrs

/-- Something on a disk: a file with its text, or whether there is a directory. -/
inductive Item where
  | file (p : Str)
  | dir (p : Str)
deriving DecidableEq

/-- Two disks are the same there. -/
def Agree (d d' : Disk) : Item → Prop
  | .file p => d.file p = d'.file p
  | .dir p => d.dir p = d'.dir p

/-- What a run that is alone looks at. (All files but Rust source files can be inputs.) -/
def Prog.looks : Prog → Disk → Item → Prop
  | .done _, _, _ => False
  | .files k, d, x => (∃ p, ¬ IsRs p ∧ x = .file p) ∨ (k d.file).looks d x
  | .exists_ p k, d, x => (x = .file p ∨ x = .dir p) ∨ (k (d.exists_ p)).looks d x
  | .isDir p k, d, x => x = .dir p ∨ (k (d.isDir p)).looks d x
  | .mkdirs p k, d, x => (k true).looks (d.mkdirs p) x
  | .open_ p k, d, x => x = .file p ∨ (k (d.file p)).looks d x
  | .create p k, d, x => (k true).looks (d.put p []) x
  | .write p pos t k, d, x => (k true).looks (d.put p (writeAt ((d.file p).getD []) pos t)) x
  | .append p t k, d, x => (k true).looks (d.put p ((d.file p).getD [] ++ t)) x

/-- What a run that is alone changes: the files it writes to, and the directories that it makes. -/
def Prog.changes : Prog → Disk → Item → Prop
  | .done _, _, _ => False
  | .files k, d, x => (k d.file).changes d x
  | .exists_ p k, d, x => (k (d.exists_ p)).changes d x
  | .isDir p k, d, x => (k (d.isDir p)).changes d x
  | .mkdirs p k, d, x => (∃ q, x = .dir q ∧ d.dir q = false ∧ (d.mkdirs p).dir q = true) ∨ (k true).changes (d.mkdirs p) x
  | .open_ p k, d, x => (k (d.file p)).changes d x
  | .create p k, d, x => x = .file p ∨ (k true).changes (d.put p []) x
  | .write p pos t k, d, x => x = .file p ∨ (k true).changes (d.put p (writeAt ((d.file p).getD []) pos t)) x
  | .append p t k, d, x => x = .file p ∨ (k true).changes (d.put p ((d.file p).getD [] ++ t)) x

/-- Several runs that are under way at the same time, under some schedule in which no write fails, and have come to an end with these
results. -/
def Ends (ps : List Prog) (d : Disk) (rs : List (Except RunError Unit)) (d' : Disk) : Prop :=
  ∃ schedule : List Nat, turns (ps, d) (schedule.map fun i => (i, false)) = (rs.map .done, d')

/-- About to write what was left in the `BufWriter`: whatever the system answers, the result of the run is the same. -/
def Prog.Unheard : Prog → Prop
  | .write _ _ _ k => ∃ r, k = fun _ => .done r
  | _ => False

/-- About to make a call that can fail: one that changes the disk. -/
def Prog.CanFail : Prog → Prop
  | .mkdirs _ _ | .create _ _ | .write _ _ _ _ | .append _ _ _ => True
  | _ => False

/-- Calls fail only where pb-rs looks at the answer. -/
def Heard : List Prog × Disk → List (Nat × Bool) → Prop
  | _, [] => True
  | (ps, d), (i, fails) :: ts =>
    match ps[i]? with
    | none => Heard (ps, d) ts
    | some p => (fails = true → ¬ p.Unheard) ∧ Heard (ps.set i (p.step fails d).1, (p.step fails d).2) ts

/-- No run changes what another one looks at or changes (when each is alone). -/
def NeverMeet (ps : List Prog) (d : Disk) : Prop :=
  ∀ (i j : Nat) (p q : Prog), i ≠ j → ps[i]? = some p → ps[j]? = some q → ∀ x, p.changes d x → ¬ q.looks d x ∧ ¬ q.changes d x

/-- The module of the output is declared already (or the `mod.rs` is not one of pb-rs): the run has nothing to add. -/
def Listed (d : Disk) (p : Str) : Prop := ∃ text, d.file (modPath p) = some text ∧ updateModFile (some text) (fileStem p) = some (some text)

/-- No two runs write to the same file. -/
def OwnOutputs (n : Nat) (js : List Job) (d : Disk) : Prop :=
  ∀ (i i' : Nat) (j j' : Job) (p : Str), i ≠ i' → js[i]? = some j → js[i']? = some j' → j.out n d = some p → j'.out n d ≠ some p

/-- The directories of the package are there. -/
def Ready (d : Disk) (n : Nat) (j : Job) : Prop :=
  ∀ D, j.compiled n d = some D → ∀ before : List Str, before <+: packageDirs D.package → before ≠ [] → d.exists_ (before.foldl joinPath (parentPath j.outFile)) = true

/-- How `BufWriter` cuts a text in pieces: nothing is lost. -/
def Cuts (cut : Str → List Str × Str) : Prop := ∀ t, (cut t).1.flatten ++ (cut t).2 = t

end QP.Pbrs
