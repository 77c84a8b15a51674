import Verif.Spec.EnumDefaults
/-!
# The type rules of Rust, for the fragment that generated functions are written in

After the Rust reference, edition 2018: which type an expression has, what a pattern binds, which statements are correct. Types are
taken up to lifetimes. The signatures are those of `quick-protobuf/src/{reader,writer,sizeofs,message}.rs` and of the standard library.
Types that are inferred are any that fit: the rules do not look at the annotations (`inferred`) in the trees.

Left out: borrow checking, use after move of a local variable (each is used once), and mutability (the fields that are assigned are
those of `let mut msg`).
-/

namespace QP.Rust
open QP.Pbrs

/-! ## Types -/

/-- The types of expressions: those that can be written, and those that only occur inside functions. -/
inductive ETy where
  | ty (t : Ty)
  | unit
  /-- `quick_protobuf::errors::Error` -/
  | error
  /-- `&mut BytesReader` -/
  | reader
  /-- `&mut Writer<W>` -/
  | writer
  /-- `Result<T, Error>` -/
  | result (t : ETy)
  | pair (a b : ETy)
  /-- an iterator -/
  | iter (t : ETy)
deriving DecidableEq, Repr

/-- What the functions of a program can refer to: its structs with their fields, the enums for oneofs with their variants (besides `None`),
the other enums, which texts are expressions of a type, and `Self`. -/
structure Scope where
  field : Path → Str → Ty → Prop
  message : Path → Prop
  oneof : Path → Prop
  variant : Path → Str → Ty → Prop
  enum : Path → Prop
  text : Ty → Str → Prop
  self : Path

/-- `Copy`: numbers, `bool`, shared references, and the enums, which derive it (types.rs 2183). -/
def Scope.copy (S : Scope) : Ty → Prop
  | .i32 | .i64 | .u32 | .u64 | .f32 | .f64 | .bool | .usize | .ref _ => True
  | .adt p _ => S.enum p
  | _ => False

/-- `PartialEq` (structs and enums derive it). -/
def Scope.eq (S : Scope) : Ty → Prop
  | .i32 | .i64 | .u32 | .u64 | .f32 | .f64 | .bool | .usize | .cowStr | .cowBytes | .string | .vecU8 => True
  | .adt p _ => S.enum p ∨ S.message p
  | _ => False

/-- `Eq + Hash`, and `Ord`: what the keys of a map need. Floating-point numbers have none of it; structs do not derive `Eq`, enums do
not derive `Hash` nor `Ord`. -/
def Ty.key : Ty → Prop
  | .i32 | .i64 | .u32 | .u64 | .bool | .usize | .cowStr | .cowBytes | .string | .vecU8 => True
  | _ => False

/-- `Debug + Default`: what `read_map` needs. -/
def Scope.default (S : Scope) : Ty → Prop
  | .i32 | .i64 | .u32 | .u64 | .f32 | .f64 | .bool | .usize | .cowStr | .cowBytes | .string | .vecU8 => True
  | .adt p _ => S.enum p ∨ S.message p
  | _ => False

/-- Integer types, and below which number literals fit. (`usize` has at least 16 bits.) -/
def Ty.bound : Ty → Option Nat
  | .i32 => some (2 ^ 31)
  | .i64 => some (2 ^ 63)
  | .u32 => some (2 ^ 32)
  | .u64 => some (2 ^ 64)
  | .usize => some (2 ^ 16)
  | _ => none

/-- What `as` can turn into an integer: integers, `bool`, enums without contents. -/
def Scope.castable (S : Scope) : Ty → Prop
  | .i32 | .i64 | .u32 | .u64 | .usize | .bool => True
  | .adt p _ => S.enum p
  | _ => False

/-- `Deref::Target`. -/
def Ty.target : Ty → Option Ty
  | .ref t => some t
  | .box t => some t
  | .string | .cowStr => some .str
  | .vecU8 | .cowBytes => some .slice
  | _ => none

/-- Dereferencing any number of times (the receiver of a method, a field access). -/
inductive Derefs : Ty → Ty → Prop where
  | refl (t : Ty) : Derefs t t
  | step {t u v : Ty} : t.target = some u → Derefs u v → Derefs t v

/-- Arguments: a reference may be dereferenced on the way. -/
def Coerces (a b : Ty) : Prop := a = b ∨ ∃ t u, a = .ref t ∧ b = .ref u ∧ Derefs t u

/-- The types that have `len` and `is_empty`. -/
def Ty.sized : Ty → Prop
  | .str | .slice | .vec _ | .packed _ | .kvmap _ _ => True
  | _ => False

/-! ## Patterns -/

/-- Local variables; and whether `?` may be used: the function or closure returns a `Result<_, Error>`. -/
structure Locals where
  vars : Var → Option ETy
  tries : Bool

/-- One more variable. -/
def Locals.set (Γ : Locals) (x : Var) (t : ETy) : Locals := { Γ with vars := fun y => if y = x then some t else Γ.vars y }

/-- Inside a closure that returns a `t`. -/
def Locals.inside (Γ : Locals) (t : ETy) : Locals := { Γ with tries := match t with | .result _ => true | _ => false }

/-- A pattern fits values of a type, and binds variables. `r`: what is matched is behind a reference, so that variables become
references (default binding modes). `&x` copies. -/
inductive Binds (S : Scope) : Bool → Pat → ETy → Locals → Locals → Prop where
  | wild {r t Γ} : Binds S r .wild t Γ Γ
  | var {x t Γ} : Binds S false (.var x) t Γ (Γ.set x t)
  | varRef {x t Γ} : Binds S true (.var x) (.ty t) Γ (Γ.set x (.ty (.ref t)))
  | refVar {r x t Γ} : Binds S r (.refVar x) (.ty t) Γ (Γ.set x (.ty (.ref t)))
  | deref {x t Γ} : S.copy t → Binds S false (.deref x) (.ty (.ref t)) Γ (Γ.set x (.ty t))
  | num {n Γ} : n < 2 ^ 32 → Binds S false (.num n) (.ty .u32) Γ Γ
  | pair {r a b t u Γ Γ' Γ''} : Binds S r a t Γ Γ' → Binds S r b u Γ' Γ'' → Binds S r (.pair a b) (.pair t u) Γ Γ''
  | ok {a t Γ Γ'} : Binds S false a t Γ Γ' → Binds S false (.ok a) (.result t) Γ Γ'
  | err {a t Γ Γ'} : Binds S false a .error Γ Γ' → Binds S false (.err a) (.result t) Γ Γ'
  | variant {r p x a t Γ Γ'} : S.variant p x t → Binds S r a (.ty t) Γ Γ' → Binds S r (.variant p x a) (.ty (.adt p false)) Γ Γ'
  | variantNone {r p Γ} : S.oneof p → Binds S r (.variantNone p) (.ty (.adt p false)) Γ Γ
  | through {p x a t Γ Γ'} : Binds S true (.variant p x a) (.ty t) Γ Γ' → Binds S false (.variant p x a) (.ty (.ref t)) Γ Γ'
  | throughNone {p t Γ Γ'} : Binds S true (.variantNone p) (.ty t) Γ Γ' → Binds S false (.variantNone p) (.ty (.ref t)) Γ Γ'

/-- Patterns that fit everything. -/
def Pat.always : Pat → Bool
  | .wild | .var _ | .refVar _ | .deref _ => true
  | .pair a b => a.always && b.always
  | _ => false

/-- Nothing is missed: of a `Result`, or of the enum of a oneof (behind references or not). -/
def Exhaustive (S : Scope) (pats : List Pat) : ETy → Prop
  | .result _ => (∃ a, Pat.ok a ∈ pats ∧ a.always = true) ∧ ∃ a, Pat.err a ∈ pats ∧ a.always = true
  | .ty t => ∃ p, Derefs t (.adt p false) ∧ S.oneof p ∧ Pat.variantNone p ∈ pats ∧
      ∀ x u, S.variant p x u → ∃ a, Pat.variant p x a ∈ pats ∧ a.always = true
  | _ => False

/-! ## Expressions -/

/-- The types that `read_kind` returns, and that `write_kind` takes; not for messages and (reading) enums. -/
def Kind.ty : Kind → Option Ty
  | .int32 | .sint32 | .sfixed32 => some .i32
  | .int64 | .sint64 | .sfixed64 => some .i64
  | .uint32 | .fixed32 => some .u32
  | .uint64 | .fixed64 => some .u64
  | .bool => some .bool
  | .double => some .f64
  | .float => some .f32
  | .string => some (.ref .str)
  | .bytes => some (.ref .slice)
  | .enum | .message => none

/-- What an expression denotes can be moved: it is no place inside of something else. -/
def Expr.owned : Expr → Bool
  | .field _ _ | .deref _ => false
  | .paren e => e.owned
  | _ => true

/-- The value of an expression of type `t` can be taken: it is copied, or it can be moved. -/
def Scope.takes (S : Scope) (e : Expr) (t : ETy) : Prop := e.owned = true ∨ ∃ u, t = .ty u ∧ S.copy u

/-- Patterns of arms. -/
def Arms.pats : Arms → List Pat
  | .nil => []
  | .cons p _ as => p :: as.pats

mutual
/-- The type of an expression. -/
inductive Has (S : Scope) : Locals → Expr → ETy → Prop where
  | var {Γ x t} : Γ.vars x = some t → Has S Γ (.var x) t
  | num {Γ n t b} : t.bound = some b → n < b → Has S Γ (.num n) (.ty t)
  | typed {Γ n t b} : t.bound = some b → n < b → Has S Γ (.typed n t) (.ty t)
  | typedF32 {Γ n} : Has S Γ (.typed n .f32) (.ty .f32)
  | typedF64 {Γ n} : Has S Γ (.typed n .f64) (.ty .f64)
  | false_ {Γ} : Has S Γ .false_ (.ty .bool)
  | emptyStr {Γ} : Has S Γ .emptyStr (.ty (.ref .str))
  /-- (`&[u8; 0]`, which coerces) -/
  | emptyBytes {Γ} : Has S Γ .emptyBytes (.ty (.ref .slice))
  | unit {Γ} : Has S Γ .unit .unit
  | verbatim {Γ t s} : S.text t s → Has S Γ (.verbatim t s) (.ty t)
  | none_ {Γ a t} : Has S Γ (.none_ a) (.ty (.option t))
  | variantNone {Γ p} : S.oneof p → Has S Γ (.variantNone p) (.ty (.adt p false))
  | paren {Γ e t} : Has S Γ e t → Has S Γ (.paren e) t
  | ref {Γ e t} : Has S Γ e (.ty t) → Has S Γ (.ref e) (.ty (.ref t))
  | deref {Γ e t u} : Has S Γ e (.ty t) → t.target = some u → Has S Γ (.deref e) (.ty u)
  | not {Γ e} : Has S Γ e (.ty .bool) → Has S Γ (.not e) (.ty .bool)
  | cast {Γ e t u} : Has S Γ e (.ty t) → S.castable t → u.bound ≠ none → Has S Γ (.cast e u) (.ty u)
  | arith {Γ op brk a b t} : op = .add ∨ op = .mul → t.bound ≠ none → Has S Γ a (.ty t) → Has S Γ b (.ty t) → Has S Γ (.bin op brk a b) (.ty t)
  | compare {Γ op brk a b t} : op = .eq ∨ op = .ne → S.eq t → Has S Γ a (.ty t) → Has S Γ b (.ty t) → Has S Γ (.bin op brk a b) (.ty .bool)
  | field {Γ e t p x u} : Has S Γ e (.ty t) → Derefs t (.adt p false) → S.field p x u → Has S Γ (.field e x) (.ty u)
  | ite {Γ c a b t} : Has S Γ c (.ty .bool) → Has S Γ a t → S.takes a t → Has S Γ b t → S.takes b t → Has S Γ (.ite c a b) t
  | match_ {Γ e as t u} : Has S Γ e t → HasArms S Γ t as u → Exhaustive S as.pats t → Has S Γ (.match_ e as) u
  | try_ {Γ e t} : Γ.tries = true → Has S Γ e (.result t) → Has S Γ (.try_ e) t
  -- methods of the standard library
  | asRef {Γ e t inf} : Has S Γ e (.ty (.option t)) → Has S Γ (.mcall e .asRef none inf .nil) (.ty (.option (.ref t)))
  | mapOr {Γ Γ' e t a p b u inf} : Has S Γ e (.ty (.option t)) → S.takes e (.ty (.option t)) → Has S Γ a u → S.takes a u →
      Binds S false p (.ty t) (Γ.inside u) Γ' → Has S Γ' b u → S.takes b u →
      Has S Γ (.mcall e .mapOr none inf (.cons a (.cons (.closure [p] b) .nil))) u
  | iterVec {Γ e t u inf} : Has S Γ e (.ty t) → Derefs t (.vec u) → Has S Γ (.mcall e .iter none inf .nil) (.iter (.ty (.ref u)))
  | iterMap {Γ e t k v inf} : Has S Γ e (.ty t) → Derefs t (.kvmap k v) →
      Has S Γ (.mcall e .iter none inf .nil) (.iter (.pair (.ty (.ref k)) (.ty (.ref v))))
  | mapIter {Γ Γ' e t p b u inf} : Has S Γ e (.iter t) → Binds S false p t (Γ.inside u) Γ' → Has S Γ' b u → S.takes b u →
      Has S Γ (.mcall e .map none inf (.cons (.closure [p] b) .nil)) (.iter u)
  | sum {Γ e inf} : Has S Γ e (.iter (.ty .usize)) → Has S Γ (.mcall e .sum (some .usize) inf .nil) (.ty .usize)
  | mapStr {Γ e inf} : Has S Γ e (.result (.ty (.ref .str))) → Has S Γ (.mcall e .map none inf (.cons (.fnName .cowBorrowed) .nil)) (.result (.ty .cowStr))
  | mapBytes {Γ e inf} : Has S Γ e (.result (.ty (.ref .slice))) →
      Has S Γ (.mcall e .map none inf (.cons (.fnName .cowBorrowed) .nil)) (.result (.ty .cowBytes))
  | len {Γ e t u inf} : Has S Γ e (.ty t) → Derefs t u → u.sized → Has S Γ (.mcall e .len none inf .nil) (.ty .usize)
  | isEmpty {Γ e t u inf} : Has S Γ e (.ty t) → Derefs t u → u.sized → Has S Γ (.mcall e .isEmpty none inf .nil) (.ty .bool)
  | ownStr {Γ e inf} : Has S Γ e (.ty (.ref .str)) → Has S Γ (.mcall e .toOwned none inf .nil) (.ty .string)
  | ownBytes {Γ e inf} : Has S Γ e (.ty (.ref .slice)) → Has S Γ (.mcall e .toOwned none inf .nil) (.ty .vecU8)
  | toString_ {Γ e inf} : Has S Γ e (.ty (.ref .str)) → Has S Γ (.mcall e .toString_ none inf .nil) (.ty .string)
  | toVec {Γ e inf} : Has S Γ e (.ty (.ref .slice)) → Has S Γ (.mcall e .toVec none inf .nil) (.ty .vecU8)
  -- `MessageWrite::get_size`
  | getSize {Γ e t p inf} : Has S Γ e (.ty t) → Derefs t (.adt p false) → S.message p → Has S Γ (.mcall e .getSize none inf .nil) (.ty .usize)
  -- methods of `BytesReader`
  | read {Γ e b k t inf} : Has S Γ e .reader → Has S Γ b (.ty (.ref .slice)) → k.ty = some t →
      Has S Γ (.mcall e (.read k) none inf (.cons b .nil)) (.result (.ty t))
  | readEnum {Γ e b p inf} : Has S Γ e .reader → Has S Γ b (.ty (.ref .slice)) → S.enum p →
      Has S Γ (.mcall e (.read .enum) none inf (.cons b .nil)) (.result (.ty (.adt p false)))
  | readMessage {Γ e b p l inf} : Has S Γ e .reader → Has S Γ b (.ty (.ref .slice)) → S.message p →
      Has S Γ (.mcall e (.read .message) (some (.adt p l)) inf (.cons b .nil)) (.result (.ty (.adt p false)))
  | readPacked {Γ e b c x y t inf} : Has S Γ e .reader → Has S Γ b (.ty (.ref .slice)) →
      Has S (((Γ.inside (.result (.ty t))).set x .reader).set y (.ty (.ref .slice))) c (.result (.ty t)) →
      Has S Γ (.mcall e .readPacked none inf (.cons b (.cons (.closure [.var x, .var y] c) .nil))) (.result (.ty (.vec t)))
  | readPackedFixed {Γ e b t inf} : Has S Γ e .reader → Has S Γ b (.ty (.ref .slice)) → S.copy t → S.eq t →
      Has S Γ (.mcall e .readPackedFixed none inf (.cons b .nil)) (.result (.ty (.packed t)))
  | readMap {Γ e b c c' x y x' y' k v inf} : Has S Γ e .reader → Has S Γ b (.ty (.ref .slice)) →
      Has S (((Γ.inside (.result (.ty k))).set x .reader).set y (.ty (.ref .slice))) c (.result (.ty k)) →
      Has S (((Γ.inside (.result (.ty v))).set x' .reader).set y' (.ty (.ref .slice))) c' (.result (.ty v)) → S.default k → S.default v →
      Has S Γ (.mcall e .readMap none inf (.cons b (.cons (.closure [.var x, .var y] c) (.cons (.closure [.var x', .var y'] c') .nil))))
        (.result (.pair (.ty k) (.ty v)))
  | readUnknown {Γ e b t inf} : Has S Γ e .reader → Has S Γ b (.ty (.ref .slice)) → Has S Γ t (.ty .u32) →
      Has S Γ (.mcall e .readUnknown none inf (.cons b (.cons t .nil))) (.result .unit)
  | readToEnd {Γ e inf} : Has S Γ e .reader → Has S Γ (.mcall e .readToEnd none inf .nil) .unit
  | isEof {Γ e inf} : Has S Γ e .reader → Has S Γ (.mcall e .isEof none inf .nil) (.ty .bool)
  | nextTag {Γ e b inf} : Has S Γ e .reader → Has S Γ b (.ty (.ref .slice)) → Has S Γ (.mcall e .nextTag none inf (.cons b .nil)) (.result (.ty .u32))
  -- methods of `Writer`
  | write {Γ e a k t u inf} : Has S Γ e .writer → Has S Γ a (.ty t) → S.takes a (.ty t) → k.ty = some u → Coerces t u →
      Has S Γ (.mcall e (.write k) none inf (.cons a .nil)) (.result .unit)
  | writeEnum {Γ e a inf} : Has S Γ e .writer → Has S Γ a (.ty .i32) → Has S Γ (.mcall e (.write .enum) none inf (.cons a .nil)) (.result .unit)
  | writeMessage {Γ e a p inf} : Has S Γ e .writer → Has S Γ a (.ty (.ref (.adt p false))) → S.message p →
      Has S Γ (.mcall e (.write .message) none inf (.cons a .nil)) (.result .unit)
  | writeWithTag {Γ e n x b inf} : Has S Γ e .writer → Has S Γ n (.ty .u32) → Has S ((Γ.inside (.result .unit)).set x .writer) b (.result .unit) →
      Has S Γ (.mcall e .writeWithTag none inf (.cons n (.cons (.closure [.var x] b) .nil))) (.result .unit)
  | writePackedWithTag {Γ Γ' Γ'' e n a t x p b p' b' inf} : Has S Γ e .writer → Has S Γ n (.ty .u32) → Has S Γ a (.ty (.ref (.vec t))) →
      Binds S false p (.ty (.ref t)) ((Γ.inside (.result .unit)).set x .writer) Γ' → Has S Γ' b (.result .unit) →
      Binds S false p' (.ty (.ref t)) (Γ.inside (.ty .usize)) Γ'' → Has S Γ'' b' (.ty .usize) →
      Has S Γ (.mcall e .writePackedWithTag none inf (.cons n (.cons a (.cons (.closure [.var x, p] b) (.cons (.ref (.closure [p'] b')) .nil))))) (.result .unit)
  | writePackedFixedWithTag {Γ e n a t inf} : Has S Γ e .writer → Has S Γ n (.ty .u32) → Has S Γ a (.ty (.ref (.packed t))) → S.copy t → S.eq t →
      Has S Γ (.mcall e .writePackedFixedWithTag none inf (.cons n (.cons a .nil))) (.result .unit)
  | writeMap {Γ e s n n' x b x' b' inf} : Has S Γ e .writer → Has S Γ s (.ty .usize) → Has S Γ n (.ty .u32) →
      Has S ((Γ.inside (.result .unit)).set x .writer) b (.result .unit) → Has S Γ n' (.ty .u32) →
      Has S ((Γ.inside (.result .unit)).set x' .writer) b' (.result .unit) →
      Has S Γ (.mcall e .writeMap none inf (.cons s (.cons n (.cons (.closure [.var x] b) (.cons n' (.cons (.closure [.var x'] b') .nil)))))) (.result .unit)
  -- functions
  | some {Γ e t inf} : Has S Γ e (.ty t) → S.takes e (.ty t) → Has S Γ (.call .some inf (.cons e .nil)) (.ty (.option t))
  | ok {Γ e t inf} : Has S Γ e t → S.takes e t → Has S Γ (.call .ok inf (.cons e .nil)) (.result t)
  | okUnit {Γ inf} : Has S Γ (.call .ok inf (.cons .unit .nil)) (.result .unit)
  | boxNew {Γ e t inf} : Has S Γ e (.ty t) → S.takes e (.ty t) → Has S Γ (.call .boxNew inf (.cons e .nil)) (.ty (.box t))
  | cowStr {Γ e inf} : Has S Γ e (.ty (.ref .str)) → Has S Γ (.call .cowBorrowed inf (.cons e .nil)) (.ty .cowStr)
  | cowBytes {Γ e inf} : Has S Γ e (.ty (.ref .slice)) → Has S Γ (.call .cowBorrowed inf (.cons e .nil)) (.ty .cowBytes)
  | sizeofVarint {Γ e inf} : Has S Γ e (.ty .u64) → Has S Γ (.call .sizeofVarint inf (.cons e .nil)) (.ty .usize)
  | sizeofSint32 {Γ e inf} : Has S Γ e (.ty .i32) → Has S Γ (.call .sizeofSint32 inf (.cons e .nil)) (.ty .usize)
  | sizeofSint64 {Γ e inf} : Has S Γ e (.ty .i64) → Has S Γ (.call .sizeofSint64 inf (.cons e .nil)) (.ty .usize)
  | sizeofLen {Γ e inf} : Has S Γ e (.ty .usize) → Has S Γ (.call .sizeofLen inf (.cons e .nil)) (.ty .usize)
  | vecNew {Γ t inf} : Has S Γ (.call .vecNew inf .nil) (.ty (.vec t))
  | vecU8New {Γ inf} : Has S Γ (.call .vecU8New inf .nil) (.ty .vecU8)
  | hashMapNew {Γ k v inf} : Has S Γ (.call .hashMapNew inf .nil) (.ty (.kvmap k v))
  | packedFrom {Γ e t inf} : Has S Γ e (.ty (.vec t)) → S.takes e (.ty (.vec t)) → S.copy t → S.eq t → Has S Γ (.call .packedFrom inf (.cons e .nil)) (.ty (.packed t))
  | selfDefault {Γ inf} : S.message S.self → Has S Γ (.call .selfDefault inf .nil) (.ty (.adt S.self false))
  | default {Γ p inf} : S.message p → Has S Γ (.call (.default p) inf .nil) (.ty (.adt p false))
  | variant {Γ p x e t inf} : S.variant p x t → Has S Γ e (.ty t) → S.takes e (.ty t) → Has S Γ (.call (.variant p x) inf (.cons e .nil)) (.ty (.adt p false))
/-- Arms that fit values of type `t` and have values of type `u`. -/
inductive HasArms (S : Scope) : Locals → ETy → Arms → ETy → Prop where
  | nil {Γ t u} : HasArms S Γ t .nil u
  | cons {Γ Γ' t u p e as} : Binds S false p t Γ Γ' → Has S Γ' e u → S.takes e u → HasArms S Γ t as u → HasArms S Γ t (.cons p e as) u
end

/-! ## Statements -/

/-- Statements on one line. -/
inductive SimpleOk (S : Scope) (Γ : Locals) : Simple → Prop where
  | expr {e t} : Has S Γ e t → SimpleOk S Γ (.expr e)
  | assign {x p f e t} : Γ.vars x = some (.ty (.adt p false)) → S.field p f t → Has S Γ e (.ty t) → S.takes e (.ty t) → SimpleOk S Γ (.assign x f e)
  | push {x p f e t} : Γ.vars x = some (.ty (.adt p false)) → S.field p f (.vec t) → Has S Γ e (.ty t) → S.takes e (.ty t) → SimpleOk S Γ (.push x f e)
  | returnErr {e} : Γ.tries = true → Has S Γ e .error → SimpleOk S Γ (.returnErr e)

/-- Bodies of arms; all of type `()`. -/
inductive ArmOk (S : Scope) (Γ : Locals) : ArmBody → Prop where
  | simple {s} : SimpleOk S Γ s → ArmOk S Γ (.simple s)
  | block {e t} : Has S Γ e t → ArmOk S Γ (.block e)
  | value {e} : Has S Γ e .unit → ArmOk S Γ (.value e)
  | empty : ArmOk S Γ .empty
  | insert {e x p f k v} : Has S Γ e (.pair (.ty k) (.ty v)) → Γ.vars x = some (.ty (.adt p false)) → S.field p f (.kvmap k v) → k.key →
      ArmOk S Γ (.insert e x f)

/-- What `for` can go over, and what it gives. -/
inductive Iterates : ETy → ETy → Prop where
  | vec {t} : Iterates (.ty (.ref (.vec t))) (.ty (.ref t))
  | packed {t} : Iterates (.ty (.ref (.packed t))) (.ty t)
  | iter {t} : Iterates (.iter t) t

/-- Statements, and the variables after them. -/
inductive StmtOk (S : Scope) : Locals → Stmt → Locals → Prop where
  | letMut {Γ x e t} : Has S Γ e t → S.takes e t → StmtOk S Γ (.letMut x e) (Γ.set x t)
  | expr {Γ e t} : Has S Γ e t → StmtOk S Γ (.expr e) Γ
  | ifThen {Γ c e t} : Has S Γ c (.ty .bool) → Has S Γ e t → StmtOk S Γ (.ifThen c e) Γ
  | for_ {Γ Γ' p e b t u v} : Has S Γ e t → S.takes e t → Iterates t u → Binds S false p u Γ Γ' → p.always = true → Has S Γ' b v → StmtOk S Γ (.for_ p e b) Γ
  | match_ {Γ e as t} : Has S Γ e t → (∀ a ∈ as, ∃ Γ', Binds S false a.1 t Γ Γ' ∧ ArmOk S Γ' a.2) → Exhaustive S (as.map (·.1)) t → StmtOk S Γ (.match_ e as) Γ
  | whileMatch {Γ c e as t} : Has S Γ c (.ty .bool) → Has S Γ e t → (∀ a ∈ as, ∃ Γ', Binds S false a.1 t Γ Γ' ∧ ArmOk S Γ' a.2) →
      Exhaustive S (as.map (·.1)) t → StmtOk S Γ (.whileMatch c e as) Γ

/-- Statements one after the other. -/
inductive StmtsOk (S : Scope) : Locals → List Stmt → Locals → Prop where
  | nil {Γ} : StmtsOk S Γ [] Γ
  | cons {Γ Γ' Γ'' s ss} : StmtOk S Γ s Γ' → StmtsOk S Γ' ss Γ'' → StmtsOk S Γ (s :: ss) Γ''

/-- A function body with a value of type `t`. -/
def BodyOk (S : Scope) (Γ : Locals) (b : Body) (t : ETy) : Prop := ∃ Γ', StmtsOk S Γ b.stmts Γ' ∧ Has S Γ' b.value t ∧ S.takes b.value t

/-! ## Programs -/

/-- What the functions of the struct `self` of a program can refer to. -/
def Prog.scope (P : Prog) (text : Ty → Str → Prop) (self : Path) : Scope where
  field p x t := ∃ s, P.structs p = some s ∧ ∃ u, (x, u) ∈ s.fields ∧ t = u.erase
  message p := (P.structs p).isSome
  oneof p := (P.oneofs p).isSome
  variant p x t := ∃ vs, P.oneofs p = some vs ∧ ∃ u, (x, u) ∈ vs ∧ t = u.erase
  enum p := (P.enums p).isSome
  text := text
  self := self

/-- The texts that are expressions of a type: literals (`litValue`), and the variants of the enums of the schema (`enumValue`). -/
def isText (F : Rounding) (D : FileDescriptor) (t : Ty) (s : Str) : Prop :=
  match t with
  | .adt p _ => (enumValue D p s).isSome
  | t => (litValue F t s).isSome

/-- Types of keys: the integers, `bool`, `string`, and `bytes` (which the protocol buffer language does not allow). -/
def keyType : FieldType → Bool
  | .int32 | .int64 | .uint32 | .uint64 | .sint32 | .sint64 | .fixed32 | .fixed64 | .sfixed32 | .sfixed64 | .bool
  | .stringCow | .bytesCow | .string_ | .bytes_ => true
  | _ => false

/-- A schema without maps that have other keys, and without required messages that have a default. -/
structure PlainTypes (D : FileDescriptor) : Prop where
  keys : ∀ i m f k v, D.getMessage i = some m → f ∈ m.fields → f.typ = .map k v → keyType k = true
  defaults : ∀ i m f j, D.getMessage i = some m → f ∈ m.fields → f.frequency.isOptional = false → f.typ = .message j → f.default = none

/-- The parameters of `get_size(&self) -> usize` (message.rs 25). -/
def sizeLocals (self : Path) : Locals := ⟨fun x => if x = .self then some (.ty (.ref (.adt self false))) else none, false⟩
/-- The parameters of `write_message<W: WriterBackend>(&self, w: &mut Writer<W>) -> Result<()>` (message.rs 20). -/
def writeLocals (self : Path) : Locals :=
  ⟨fun x => if x = .self then some (.ty (.ref (.adt self false))) else if x = .w then some .writer else none, true⟩
/-- The parameters of `from_reader(r: &mut BytesReader, bytes: &'a [u8]) -> Result<Self>` (message.rs 45). -/
def readLocals : Locals := ⟨fun x => if x = .r then some .reader else if x = .bytes then some (.ty (.ref .slice)) else none, true⟩

/-- The functions of a struct have the types that the traits `MessageWrite`, `MessageRead` and `Default` demand. -/
structure FunctionsOk (S : Scope) (s : StructDef) : Prop where
  size : ∀ b, s.size = some b → BodyOk S (sizeLocals S.self) b (.ty .usize)
  write : ∀ b, s.write = some b → BodyOk S (writeLocals S.self) b (.result .unit)
  read : BodyOk S readLocals s.read (.result (.ty (.adt S.self false)))
  /-- `Self { f: e, … }`: all fields, each with a value of its type. -/
  default : ∀ l, s.default = some l → l.map (·.1) = s.fields.map (·.1) ∧
    ∀ x e, (x, e) ∈ l → ∃ t, (x, t) ∈ s.fields ∧ Has S ⟨fun _ => none, false⟩ e (.ty t.erase)

end QP.Rust
