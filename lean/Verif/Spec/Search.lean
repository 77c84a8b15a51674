import Verif.Model.Pbrs.Run
import Verif.Spec.Imports
/-!
# Where imports are looked for

Paths as the lists of their components.
-/

namespace QP.Pbrs

/-- The components of a path; `.` and empty components are none. -/
def parts (p : Str) : List Str := (splitSlashes p).filter fun c => c ≠ [] ∧ c ≠ ['.']

/-- Two paths name the same place: both from the root, or both from the working directory, with the same components. -/
def SamePlace (p q : Str) : Prop := isAbsolute p = isAbsolute q ∧ parts p = parts q

/-- `q` is the file `imp` in the directory `dir`. -/
structure FileIn (dir imp q : Str) : Prop where
  root : isAbsolute q = isAbsolute dir
  parts : parts q = parts dir ++ parts imp

/-- `q` is the file `imp` in the directory `dir`, where `dir` is relative to the directory in which `file` is. -/
structure FileBeside (file dir imp q : Str) : Prop where
  root : isAbsolute q = isAbsolute file
  parts : parts q = (parts file).dropLast ++ parts dir ++ parts imp

/-- `q` is where the entry `dir` of the include path has the import `imp` of `file`: an absolute entry is a directory of its own, a
relative one is relative to the directory in which the importing file is. -/
def Place (file dir imp q : Str) : Prop := if isAbsolute dir then FileIn dir imp q else FileBeside file dir imp q

/-- The path of a file: its last component is a name. -/
def FilePath (p : Str) : Prop := (splitSlash p).2 ≠ [] ∧ (splitSlash p).2 ≠ ['.']

end QP.Pbrs
