import Verif.Model.Rust.Eval
/-!
# A fragment of Rust: associated constants and getters

Constants of a struct and methods that return a field or, if it is `None`, a constant: syntax, text and meaning. Nothing here is about
protocol buffers. (The items modelled are those printed by `pb-rs/src/types.rs` 591-697, 1284-1329 and 1460-1481.)
-/

namespace QP.Rust
open QP.Pbrs QP.Gen

/-- The expressions in getters. -/
inductive GetExpr where
  /-- `self.n` -/
  | field (n : Str)
  /-- `Self::n` -/
  | const (n : Str)
  /-- `e.as_ref()` -/
  | asRef (e : GetExpr)
  /-- `e.map(|s| s.as_str())` -/
  | mapStr (e : GetExpr)
  /-- `e.map(|s| s.as_slice())` -/
  | mapSlice (e : GetExpr)
  /-- `a.unwrap_or(b)` -/
  | unwrapOr (a b : GetExpr)
  | ref (e : GetExpr)
  | deref (e : GetExpr)
deriving DecidableEq

/-- How an expression is written. -/
def GetExpr.doc : GetExpr → Doc
  | field n => d!"self.{n}"
  | const n => d!"Self::{n}"
  | asRef e => d!"{e.doc}.as_ref()"
  | mapStr e => d!"{e.doc}.map(|s| s.as_str())"
  | mapSlice e => d!"{e.doc}.map(|s| s.as_slice())"
  | unwrapOr a b => d!"{a.doc}.unwrap_or({b.doc})"
  | ref e => d!"&{e.doc}"
  | deref e => d!"*{e.doc}"

/-- `pub const name: ty = text;` -/
structure ConstItem where
  name : Str
  ty : Ty
  text : Str
deriving DecidableEq

/-- The text of a constant. -/
def ConstItem.doc (c : ConstItem) : Doc := ln d!"    pub const {c.name}: {c.ty.doc} = {c.text};"

/-- `pub fn name(&self) -> ret { body }` -/
structure GetterItem where
  name : Str
  ret : Ty
  body : GetExpr
deriving DecidableEq

/-- The text of a getter. -/
def GetterItem.doc (g : GetterItem) : Doc :=
  ln d!"    pub fn {g.name}(&self) -> {g.ret.doc} \{" ++ ln d!"        {g.body.doc}" ++ ln d!"    }"

/-- An `impl` block of the struct `name`. -/
def implBlock (name : Str) (l : Bool) (items : List Doc) : Doc :=
  (if l then ln d!"impl<'a> {name}<'a> \{" else ln d!"impl {name} \{") ++ Doc.concat items ++ ln d!"}"

/-- What a getter can refer to: the fields of the struct, their values, the constants, and what Rust expressions mean. -/
structure GetWorld where
  fields : List (Str × Ty)
  slots : List RVal
  consts : List ConstItem
  const : Ty → Str → RVal

/-- The value of an expression, with its type (without lifetimes). Ill-typed expressions have none. -/
def GetExpr.eval (W : GetWorld) : GetExpr → Option (Ty × RVal)
  | field n => (W.fields.findIdx? (fun f => f.1 == n)).bind fun i =>
      (W.fields[i]?).bind fun f => (W.slots[i]?).map fun v => (f.2.erase, v)
  | const n => (W.consts.find? (fun c => c.name == n)).map fun c => (c.ty.erase, W.const c.ty.erase c.text)
  | asRef e => (e.eval W).bind fun v =>
      match v.1 with
      | .option t => some (.option (.ref t), v.2)
      | _ => none
  | mapStr e => (e.eval W).bind fun v =>
      match v.1 with
      | .option (.ref .string) => some (.option (.ref .str), v.2)
      | _ => none
  | mapSlice e => (e.eval W).bind fun v =>
      match v.1 with
      | .option (.ref .vecU8) => some (.option (.ref .slice), v.2)
      | _ => none
  | unwrapOr a b => (a.eval W).bind fun v => (b.eval W).bind fun d =>
      match v.1, v.2 with
      | .option t, .some x => if t = d.1 then some (t, x) else none
      | .option t, .none => if t = d.1 then some (t, d.2) else none
      | _, _ => none
  | ref e => (e.eval W).map fun v => (.ref v.1, v.2)
  | deref e => (e.eval W).bind fun v =>
      match v.1 with
      | .ref t => some (t, v.2)
      | _ => none

/-- A value of type `a` is accepted where type `b` is declared: the types are the same, or `a` is a reference to a reference, which Rust
dereferences. -/
def coerces (a b : Ty) : Bool :=
  a == b || match a, b with
    | .ref (.ref t), .ref t' => t == t'
    | _, _ => false

/-- A call of the getter. -/
def GetterItem.call (g : GetterItem) (W : GetWorld) : Option RVal :=
  (g.body.eval W).bind fun v => if coerces v.1 g.ret.erase then some v.2 else none

end QP.Rust
