import Verif.Model.Pbrs.Types
/-!
# `update_mod_file` (`pb-rs/src/types.rs` 3167-3215)

A file is its text, or `none` if it does not exist (text is assumed to be valid UTF-8, reads and writes to succeed).
-/

namespace QP.Pbrs

/-- types.rs 3167. -/
def MAGIC_HEADER : Str := "// Automatically generated mod.rs".toList

/-- types.rs 3178, `matches`. -/
def PUB_MOD : Str := "pub mod ".toList

/-- `BufRead::lines` strips a `\r` before the `\n`. -/
def stripCr (l : Str) : Str := if l.getLast? = some '\r' then l.dropLast else l

/-- types.rs 3184, `BufRead::lines`: `acc` is the part of the current line already seen. -/
def linesFrom (acc : Str) : Str → List Str
  | [] => if acc.isEmpty then [] else [acc]
  | c :: cs => if c = '\n' then stripCr acc :: linesFrom [] cs else linesFrom (acc ++ [c]) cs

/-- types.rs 3184. -/
def lines (s : Str) : List Str := linesFrom [] s

/-- What follows the first occurrence of `pat` in the text (`str::find`, then slicing). -/
def afterFirst (pat : Str) : Str → Option Str
  | [] => if pat.isEmpty then some [] else none
  | c :: cs => if pat.isPrefixOf (c :: cs) then some ((c :: cs).drop pat.length) else afterFirst pat cs

/-- types.rs 3194-3202, one line: is it a reference to module `name`? `none` is the panic of the slice, when nothing follows
`pub mod ` or the last character takes more than one byte. -/
def lineRefers (name line : Str) : Option Bool :=
  match afterFirst PUB_MOD line with
  | none => some false
  | some rest =>
    match rest.getLast? with
    | none => none
    | some c => if c.toNat < 128 then some (rest.dropLast == name) else none

/-- types.rs 3184-3203, the loop over the lines after the test of the first one; the result is `present`. -/
def scanLines (name : Str) : List Str → Option Bool
  | [] => some false
  | l :: ls =>
    match lineRefers name l with
    | none => none
    | some true => some true
    | some false => scanLines name ls

/-- types.rs 3184-3203, the whole loop. -/
def isPresent (name : Str) : List Str → Option Bool
  | [] => some false
  | l :: ls => if (afterFirst MAGIC_HEADER l).isSome then scanLines name (l :: ls) else some true

/-- types.rs 3212, `writeln!(f, "pub mod {};", name)`. -/
def modLine (name : Str) : Str := PUB_MOD ++ name ++ [';', '\n']

/-- types.rs 3170-3215, `update_mod_file`, on the text of `mod.rs`; `none` is a panic. -/
def updateModFile (file : Option Str) (name : Str) : Option (Option Str) :=
  match file with
  | none => some (some (MAGIC_HEADER ++ ['\n'] ++ modLine name))
  | some text =>
    match isPresent name (lines text) with
    | none => none
    | some true => some (some text)
    | some false => some (some (text ++ modLine name))

/-- Several calls, one after the other. -/
def updateModFiles (file : Option Str) : List Str → Option (Option Str)
  | [] => some file
  | n :: ns => (updateModFile file n).bind fun file' => updateModFiles file' ns

end QP.Pbrs
