import Verif.Model.Pbrs.Doc
/-!
# A fragment of Rust: syntax

The expressions, statements, patterns and types that occur in the functions pb-rs generates, and how they are written (`doc`).
Nothing here is about protocol buffers: `Verif/Model/Rust/Eval.lean` gives this fragment its meaning.

Names bound in function bodies, methods and functions of the runtime are enumerated (they are the same in all generated code); the
names of fields, variants and types are texts. Types that Rust infers and the text does not show are kept in the tree (`inferred`)
and not written.
-/

namespace QP.Rust
open QP.Pbrs

/-- A path `a::b::C`. -/
abbrev Path := List Str

/-- The text of a path. -/
def pathDoc : Path → Doc
  | [] => .empty
  | [s] => .lit s
  | s :: ss => d!"{s}::{pathDoc ss}"

/-- Types. `adt p l`: a struct or enum, with or without `<'a>`. -/
inductive Ty where
  | i32 | i64 | u32 | u64 | f32 | f64 | bool | usize
  | str | slice
  | cowStr | cowBytes | string | vecU8
  | adt (p : Path) (lt : Bool)
  | option (t : Ty)
  | box (t : Ty)
  | vec (t : Ty)
  | packed (t : Ty)
  | kvmap (k v : Ty)
  | ref (t : Ty)
deriving DecidableEq, Repr

/-- How a type is written. -/
def Ty.doc : Ty → Doc
  | i32 => d!"i32"
  | i64 => d!"i64"
  | u32 => d!"u32"
  | u64 => d!"u64"
  | f32 => d!"f32"
  | f64 => d!"f64"
  | bool => d!"bool"
  | usize => d!"usize"
  | str => d!"str"
  | slice => d!"[u8]"
  | cowStr => d!"Cow<'a, str>"
  | cowBytes => d!"Cow<'a, [u8]>"
  | string => d!"String"
  | vecU8 => d!"Vec<u8>"
  | adt p true => d!"{pathDoc p}<'a>"
  | adt p false => pathDoc p
  | option t => d!"Option<{t.doc}>"
  | box t => d!"Box<{t.doc}>"
  | vec t => d!"Vec<{t.doc}>"
  | packed t => d!"PackedFixed<'a, {t.doc}>"
  | kvmap k v => d!"KVMap<{k.doc}, {v.doc}>"
  | ref t => d!"&{t.doc}"

/-- A type without its lifetimes. -/
def Ty.erase : Ty → Ty
  | adt p _ => adt p false
  | option t => option t.erase
  | box t => box t.erase
  | vec t => vec t.erase
  | packed t => packed t.erase
  | kvmap k v => kvmap k.erase v.erase
  | ref t => ref t.erase
  | t => t

/-- Names of local variables and parameters. -/
inductive Var where
  | self | r | w | bytes | msg | m | s | k | v | key | value | t | e | i
deriving DecidableEq, Repr

/-- The text of a name. -/
def Var.doc : Var → Doc
  | self => d!"self"
  | r => d!"r"
  | w => d!"w"
  | bytes => d!"bytes"
  | msg => d!"msg"
  | m => d!"m"
  | s => d!"s"
  | k => d!"k"
  | v => d!"v"
  | key => d!"key"
  | value => d!"value"
  | t => d!"t"
  | e => d!"e"
  | i => d!"i"

/-- The kinds of values for which the runtime has `read_*` and `write_*` methods. -/
inductive Kind where
  | int32 | int64 | uint32 | uint64 | sint32 | sint64 | bool | fixed64 | sfixed64 | double | fixed32 | sfixed32 | float
  | string | bytes | enum | message
deriving DecidableEq, Repr

/-- The text of a kind. -/
def Kind.doc : Kind → Doc
  | int32 => d!"int32"
  | int64 => d!"int64"
  | uint32 => d!"uint32"
  | uint64 => d!"uint64"
  | sint32 => d!"sint32"
  | sint64 => d!"sint64"
  | bool => d!"bool"
  | fixed64 => d!"fixed64"
  | sfixed64 => d!"sfixed64"
  | double => d!"double"
  | fixed32 => d!"fixed32"
  | sfixed32 => d!"sfixed32"
  | float => d!"float"
  | string => d!"string"
  | bytes => d!"bytes"
  | enum => d!"enum"
  | message => d!"message"

/-- Methods. -/
inductive Meth where
  | asRef | mapOr | iter | map | sum | len | isEmpty | toOwned | toString_ | toVec | getSize
  | read (k : Kind) | readPacked | readPackedFixed | readMap | readUnknown | readToEnd | isEof | nextTag
  | write (k : Kind) | writeWithTag | writePackedWithTag | writePackedFixedWithTag | writeMap
deriving DecidableEq, Repr

/-- The text of a method's name. -/
def Meth.doc : Meth → Doc
  | asRef => d!"as_ref"
  | mapOr => d!"map_or"
  | iter => d!"iter"
  | map => d!"map"
  | sum => d!"sum"
  | len => d!"len"
  | isEmpty => d!"is_empty"
  | toOwned => d!"to_owned"
  | toString_ => d!"to_string"
  | toVec => d!"to_vec"
  | getSize => d!"get_size"
  | read k => d!"read_{k.doc}"
  | readPacked => d!"read_packed"
  | readPackedFixed => d!"read_packed_fixed"
  | readMap => d!"read_map"
  | readUnknown => d!"read_unknown"
  | readToEnd => d!"read_to_end"
  | isEof => d!"is_eof"
  | nextTag => d!"next_tag"
  | write k => d!"write_{k.doc}"
  | writeWithTag => d!"write_with_tag"
  | writePackedWithTag => d!"write_packed_with_tag"
  | writePackedFixedWithTag => d!"write_packed_fixed_with_tag"
  | writeMap => d!"write_map"

/-- Functions and constructors. `variant p x`: the variant `x` of the enum `p`. -/
inductive Fn where
  | some | ok | err | boxNew | cowBorrowed | sizeofVarint | sizeofSint32 | sizeofSint64 | sizeofLen
  | vecNew | vecU8New | hashMapNew | packedFrom | selfDefault
  | default (p : Path)
  | variant (p : Path) (x : Str)
deriving DecidableEq, Repr

/-- The text of a function's name. -/
def Fn.doc : Fn → Doc
  | some => d!"Some"
  | ok => d!"Ok"
  | err => d!"Err"
  | boxNew => d!"Box::new"
  | cowBorrowed => d!"Cow::Borrowed"
  | sizeofVarint => d!"sizeof_varint"
  | sizeofSint32 => d!"sizeof_sint32"
  | sizeofSint64 => d!"sizeof_sint64"
  | sizeofLen => d!"sizeof_len"
  | vecNew => d!"Vec::new"
  | vecU8New => d!"Vec::<u8>::new"
  | hashMapNew => d!"HashMap::new"
  | packedFrom => d!"PackedFixed::from"
  | selfDefault => d!"Self::default"
  | default p => d!"{pathDoc p}::default"
  | variant p x => d!"{pathDoc p}::{x}"

/-- Operators. -/
inductive Op where
  | add | mul | eq | ne
deriving DecidableEq, Repr

/-- The text of an operator. -/
def Op.doc : Op → Doc
  | add => d!"+"
  | mul => d!"*"
  | eq => d!"=="
  | ne => d!"!="

/-- Patterns. -/
inductive Pat where
  | wild
  | var (x : Var)
  /-- `ref x` -/
  | refVar (x : Var)
  /-- `&x` -/
  | deref (x : Var)
  | num (n : Nat)
  /-- `(a, b)` -/
  | pair (a b : Pat)
  /-- `Ok(a)` -/
  | ok (a : Pat)
  /-- `Err(a)` -/
  | err (a : Pat)
  /-- `p::x(a)` -/
  | variant (p : Path) (x : Str) (a : Pat)
  /-- `p::None` -/
  | variantNone (p : Path)
deriving DecidableEq, Repr

/-- How a pattern is written. -/
def Pat.doc : Pat → Doc
  | wild => d!"_"
  | var x => x.doc
  | refVar x => d!"ref {x.doc}"
  | deref x => d!"&{x.doc}"
  | num n => d!"{n}"
  | pair a b => d!"({a.doc}, {b.doc})"
  | ok a => d!"Ok({a.doc})"
  | err a => d!"Err({a.doc})"
  | variant p x a => d!"{pathDoc p}::{x}({a.doc})"
  | variantNone p => d!"{pathDoc p}::None"

/-- Patterns separated by commas. -/
def patsDoc : List Pat → Doc
  | [] => .empty
  | [p] => p.doc
  | p :: ps => d!"{p.doc}, {patsDoc ps}"

mutual
/-- Expressions. -/
inductive Expr where
  | var (x : Var)
  /-- an unsuffixed number -/
  | num (n : Nat)
  /-- a number with its type as suffix: `0i32` -/
  | typed (n : Nat) (t : Ty)
  | false_
  /-- `""` -/
  | emptyStr
  /-- `b""` -/
  | emptyBytes
  /-- `()` -/
  | unit
  /-- an expression copied from the schema, of the given type -/
  | verbatim (t : Ty) (s : Str)
  /-- the name of a function as a value -/
  | fnName (f : Fn)
  /-- `None`, of type `Option<t>` -/
  | none_ (t : Ty)
  /-- `p::None`, a variant without contents -/
  | variantNone (p : Path)
  | paren (e : Expr)
  | ref (e : Expr)
  | deref (e : Expr)
  | not (e : Expr)
  | cast (e : Expr) (t : Ty)
  /-- `a op b`, or, with `brk`, the operator at the start of a new line -/
  | bin (op : Op) (brk : Bool) (a b : Expr)
  | field (e : Expr) (name : Str)
  /-- `e.m::<tf>(args)` -/
  | mcall (e : Expr) (m : Meth) (tf : Option Ty) (inferred : List Ty) (args : Exprs)
  | call (f : Fn) (inferred : List Ty) (args : Exprs)
  /-- `e?` -/
  | try_ (e : Expr)
  /-- `|params| e` -/
  | closure (params : List Pat) (body : Expr)
  /-- `if c { a } else { b }` -/
  | ite (c a b : Expr)
  /-- a `match` whose arms are expressions, on lines of their own -/
  | match_ (e : Expr) (arms : Arms)
/-- Arguments. -/
inductive Exprs where
  | nil
  | cons (e : Expr) (es : Exprs)
/-- Arms of a `match` expression. -/
inductive Arms where
  | nil
  | cons (p : Pat) (e : Expr) (as : Arms)
end

mutual
/-- How an expression is written. -/
def Expr.doc : Expr → Doc
  | .var x => x.doc
  | .num n => d!"{n}"
  | .typed n t => d!"{n}{t.doc}"
  | .false_ => d!"false"
  | .emptyStr => d!"\"\""
  | .emptyBytes => d!"b\"\""
  | .unit => d!"()"
  | .verbatim _ s => .lit s
  | .fnName f => f.doc
  | .none_ _ => d!"None"
  | .variantNone p => d!"{pathDoc p}::None"
  | .paren e => d!"({e.doc})"
  | .ref e => d!"&{e.doc}"
  | .deref e => d!"*{e.doc}"
  | .not e => d!"!{e.doc}"
  | .cast e t => d!"{e.doc} as {t.doc}"
  | .bin op false a b => d!"{a.doc} {op.doc} {b.doc}"
  | .bin op true a b => ln a.doc ++ d!"        {op.doc} {b.doc}"
  | .field e n => d!"{e.doc}.{n}"
  | .mcall e m none _ as => d!"{e.doc}.{m.doc}({as.doc})"
  | .mcall e m (some t) _ as => d!"{e.doc}.{m.doc}::<{t.doc}>({as.doc})"
  | .call f _ as => d!"{f.doc}({as.doc})"
  | .try_ e => d!"{e.doc}?"
  | .closure ps b => d!"|{patsDoc ps}| {b.doc}"
  | .ite c a b => d!"if {c.doc} \{ {a.doc} } else \{ {b.doc} }"
  | .match_ e as => ln d!"match {e.doc} \{" ++ as.doc ++ d!"        }"
/-- Arguments, separated by commas. -/
def Exprs.doc : Exprs → Doc
  | .nil => .empty
  | .cons e .nil => e.doc
  | .cons e es => d!"{e.doc}, {es.doc}"
/-- Arms, each on its line. -/
def Arms.doc : Arms → Doc
  | .nil => .empty
  | .cons p e as => ln d!"            {p.doc} => {e.doc}," ++ as.doc
end

/-- Statements that need no indentation of their own: they are written on one line. -/
inductive Simple where
  /-- `e;` -/
  | expr (e : Expr)
  /-- `x.f = e` -/
  | assign (x : Var) (f : Str) (e : Expr)
  /-- `x.f.push(e)` -/
  | push (x : Var) (f : Str) (e : Expr)
  /-- `return Err(e)` -/
  | returnErr (e : Expr)

/-- How they are written (without semicolon). -/
def Simple.doc : Simple → Doc
  | expr e => e.doc
  | assign x f e => d!"{x.doc}.{f} = {e.doc}"
  | push x f e => d!"{x.doc}.{f}.push({e.doc})"
  | returnErr e => d!"return Err({e.doc})"

/-- The bodies of the arms of a `match` statement. -/
inductive ArmBody where
  /-- `s,` -/
  | simple (s : Simple)
  /-- `{ e; }` -/
  | block (e : Expr)
  /-- `{ e },` -/
  | value (e : Expr)
  /-- `{},` -/
  | empty
  /-- a block of lines: `{ let (key, value) = e; x.f.insert(key, value); }` -/
  | insert (e : Expr) (x : Var) (f : Str)

/-- How they are written. -/
def ArmBody.doc : ArmBody → Doc
  | simple s => d!"{s.doc},"
  | block e => d!"\{ {e.doc}; }"
  | value e => d!"\{ {e.doc} },"
  | empty => d!"\{},"
  | insert e x f => ln d!"\{" ++ ln d!"                    let (key, value) = {e.doc};"
      ++ ln d!"                    {x.doc}.{f}.insert(key, value);" ++ d!"                }"

/-- Statements of a function body, indented by eight columns. -/
inductive Stmt where
  /-- `let mut x = e;` -/
  | letMut (x : Var) (e : Expr)
  /-- `e;` -/
  | expr (e : Expr)
  /-- `if c { e; }` -/
  | ifThen (c e : Expr)
  /-- `for p in e { b; }` -/
  | for_ (p : Pat) (e b : Expr)
  /-- a `match` statement -/
  | match_ (e : Expr) (arms : List (Pat × ArmBody))
  /-- `while c { match e { arms } }` -/
  | whileMatch (c e : Expr) (arms : List (Pat × ArmBody))

/-- The arms of a `match` statement, indented. -/
def armsDoc (indent : Doc) (arms : List (Pat × ArmBody)) : Doc :=
  Doc.concat (arms.map fun a => indent ++ ln d!"{a.1.doc} => {a.2.doc}")

/-- How statements are written. -/
def Stmt.doc : Stmt → Doc
  | letMut x e => ln d!"        let mut {x.doc} = {e.doc};"
  | expr e => ln d!"        {e.doc};"
  | ifThen c e => ln d!"        if {c.doc} \{ {e.doc}; }"
  | for_ p e b => ln d!"        for {p.doc} in {e.doc} \{ {b.doc}; }"
  | match_ e as => ln d!"        match {e.doc} \{" ++ armsDoc d!"            " as ++ ln d!"        }"
  | whileMatch c e as => ln d!"        while {c.doc} \{" ++ ln d!"            match {e.doc} \{" ++ armsDoc d!"                " as
      ++ ln d!"            }" ++ ln d!"        }"

/-- The body of a function: statements, and the value. -/
structure Body where
  stmts : List Stmt
  value : Expr

/-- How a body is written. -/
def Body.doc (b : Body) : Doc := Doc.concat (b.stmts.map Stmt.doc) ++ ln d!"        {b.value.doc}"

end QP.Rust
