import Verif.Model.Pbrs.Run
/-!
# What a run of pb-rs may do to the disk
-/

namespace QP.Pbrs

/-- A file called `mod.rs`. -/
def IsModRs (p : Str) : Prop := p = c! "mod.rs" ∨ ∃ dir, p = dir ++ c! "/mod.rs"

/-- A Rust source file. -/
def IsRs (p : Str) : Prop := c! ".rs" <:+ p

/-- Between the disks `d` and `d'`, nothing happened except to the file `out` and to files called `mod.rs`, to which text may have
been added at the end; directories may have been created. -/
structure OnlyWrites (out : Str → Prop) (d d' : Disk) : Prop where
  dirs : ∀ p, d.dir p = true → d'.dir p = true
  others : ∀ p, ¬ out p → ¬ IsModRs p → d'.file p = d.file p
  mods : ∀ p text, ¬ out p → d.file p = some text → ∃ added, d'.file p = some (text ++ added)

/-- What `j` generates from the files on the disk: the path of the output and the descriptor that is printed. -/
def Job.compiled (n : Nat) (j : Job) (d : Disk) : Option FileDescriptor :=
  match compileFile d.file j.search (typePath j.cfg) j.cfg n j.inFile with
  | .ok D => some (D.printed j.cfg)
  | .error _ => none

/-- The path of the file that `j` generates. -/
def Job.out (n : Nat) (j : Job) (d : Disk) : Option Str := (j.compiled n d).map fun D => outPath D.package j.outFile

/-- The text that `j` generates. -/
def Job.text (n : Nat) (j : Job) (d : Disk) : Option Str :=
  (j.compiled n d).bind fun D =>
    match D.write j.cfg (splitSlash j.inFile).2 (servicesOf ((d.file j.inFile).getD [])) with
    | .ok t => some t.str
    | .error _ => none

/-- No `.proto` file imports a Rust source file. -/
def NoRsImports (d : Disk) : Prop :=
  ∀ p text F r, ¬ IsRs p → d.file p = some text → Parse.readProto text = .ok F r → ∀ i ∈ F.imports, ¬ IsRs i

/-- Every `mod.rs` ends with a line end. -/
def ModsEndLines (d : Disk) : Prop := ∀ p text, IsModRs p → d.file p = some text → ∃ t, text = t ++ ['\n']

/-- `mod.rs` file `text` mentions the module `name`, or is not one of pb-rs (its first line is not the header). -/
def ModMentions (text name : Str) : Prop :=
  c! "pub mod " ++ name <:+: text ∨ ∃ first rest, text = first ++ rest ∧ (rest = [] ∨ ∃ r, rest = '\n' :: r) ∧
    '\n' ∉ first ∧ ¬ c! "// Automatically generated mod.rs" <:+: first

end QP.Pbrs
