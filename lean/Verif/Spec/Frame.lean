import Verif.Spec.Search
import Verif.Spec.Run
/-!
# Which files matter, and moving a tree of files
-/

namespace QP.Pbrs

/-- The places at which pb-rs looks when it reads `file`: the file itself, and for each import of a file at which it looks the places along the
include path, up to the first at which there is a file. -/
inductive Looked (fs : Files) (search : List Str) (file : Str) : Str → Prop
  | self : Looked fs search file file
  | import_ {p imp dir : Str} {D : FileDescriptor} {imps before after : List Str} : Looked fs search file p → Reads fs p D imps → imp ∈ imps →
      search = before ++ dir :: after → (∀ d ∈ before, fs (candidate p imp d) = none) → Looked fs search file (candidate p imp dir)

/-- `p'` is the path `p`, which is relative, in the directory `base` (both are paths of files). -/
structure MovedPath (base p p' : Str) : Prop where
  relative : isAbsolute p = false
  root : isAbsolute p' = isAbsolute base
  parts : parts p' = parts base ++ parts p
  file : FilePath p
  file' : FilePath p'

/-- The files `fs'` have in the directory `base` what `fs` has in the working directory. -/
def MovedFiles (base : Str) (fs fs' : Files) : Prop := ∀ p p', MovedPath base p p' → fs' p' = fs p

/-- All imports are relative paths of files. -/
def PlainImports (fs : Files) : Prop := ∀ p D imps, Reads fs p D imps → ∀ imp ∈ imps, isAbsolute imp = false ∧ FilePath imp

end QP.Pbrs
