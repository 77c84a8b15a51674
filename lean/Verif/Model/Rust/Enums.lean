import Verif.Model.Rust.Syntax
/-!
# A fragment of Rust: enums without fields

An enum whose variants have explicit discriminants, with `impl Default`, `impl From<i32>` and `impl From<&str>` written as matches:
syntax, text and meaning. Nothing here is about protocol buffers. (The items modelled are those printed by `pb-rs/src/types.rs`
2182-2228.)
-/

namespace QP.Rust
open QP.Pbrs

/-- An enum and its three implementations. -/
structure EnumItem where
  name : Str
  /-- the variants with their discriminants -/
  variants : List (Str × Int)
  /-- what `default()` returns -/
  default : Path
  /-- the arms of `From<i32>::from`, before `_ => Self::default()` -/
  fromI32 : List (Int × Path)
  /-- the arms of `From<&str>::from`, before `_ => Self::default()` -/
  fromStr : List (Str × Path)

namespace EnumItem

/-- `enum`. -/
def definition (E : EnumItem) : Doc :=
  ln d!"#[derive(Debug, PartialEq, Eq, Clone, Copy)]" ++ ln d!"pub enum {E.name} \{"
    ++ Doc.concat (E.variants.map fun v => ln d!"    {v.1} = {v.2},") ++ ln d!"}"

/-- `impl Default`. -/
def implDefault (E : EnumItem) : Doc :=
  ln d!"impl Default for {E.name} \{" ++ ln d!"    fn default() -> Self \{" ++ ln d!"        {pathDoc E.default}" ++ ln d!"    }" ++ ln d!"}"

/-- `impl From<i32>`. -/
def implFromI32 (E : EnumItem) : Doc :=
  ln d!"impl From<i32> for {E.name} \{" ++ ln d!"    fn from(i: i32) -> Self \{" ++ ln d!"        match i \{"
    ++ Doc.concat (E.fromI32.map fun a => ln d!"            {a.1} => {pathDoc a.2},")
    ++ ln d!"            _ => Self::default()," ++ ln d!"        }" ++ ln d!"    }" ++ ln d!"}"

/-- `impl From<&str>`. -/
def implFromStr (E : EnumItem) : Doc :=
  ln d!"impl<'a> From<&'a str> for {E.name} \{" ++ ln d!"    fn from(s: &'a str) -> Self \{" ++ ln d!"        match s \{"
    ++ Doc.concat (E.fromStr.map fun a => ln d!"            \"{a.1}\" => {pathDoc a.2},")
    ++ ln d!"            _ => Self::default()," ++ ln d!"        }" ++ ln d!"    }" ++ ln d!"}"

/-- The variant that a path names, if it names one. -/
def variant (E : EnumItem) : Path → Option Str
  | [e, v] => if e = E.name ∧ v ∈ E.variants.map (·.1) then some v else none
  | _ => none

/-- `E::default()`. -/
def defaultFn (E : EnumItem) : Option Str := E.variant E.default

/-- `E::from(i)`. -/
def fromI32Fn (E : EnumItem) (i : Int) : Option Str :=
  match E.fromI32.find? (fun a => a.1 == i) with
  | some a => E.variant a.2
  | none => E.defaultFn

/-- `E::from(s)`. -/
def fromStrFn (E : EnumItem) (s : Str) : Option Str :=
  match E.fromStr.find? (fun a => a.1 == s) with
  | some a => E.variant a.2
  | none => E.defaultFn

/-- `v as i32`. -/
def asI32 (E : EnumItem) (v : Str) : Option Int := E.variants.lookup v

/-- The items are accepted by the compiler, as far as names and numbers matter: variants are distinct, discriminants are distinct
(error E0081), and every path that is used names a variant. (That names are identifiers is another matter.) -/
structure Accepted (E : EnumItem) : Prop where
  names : (E.variants.map (·.1)).Nodup
  numbers : (E.variants.map (·.2)).Nodup
  default : (E.variant E.default).isSome
  fromI32 : ∀ a ∈ E.fromI32, (E.variant a.2).isSome
  fromStr : ∀ a ∈ E.fromStr, (E.variant a.2).isSome

end EnumItem

end QP.Rust
