import Verif.Model.Rust.Eval
import Verif.Spec.Utf8
/-!
# A fragment of Rust: literals

The meaning of the literal expressions that pb-rs writes as custom defaults (`pb-rs/src/types.rs` 777-806, `Field::sanitize_default`),
after the Rust reference (tokens: integer, floating-point, string and byte string literals). Nothing here is about protocol buffers.
`none`: the text is no literal of that type (the compiler rejects it), or it uses what is left out here (`\u{…}`, strings over several
lines).
-/

namespace QP.Rust
open QP.Pbrs QP.Gen

/-- The value of a digit. -/
def digitVal (base : Nat) (c : Char) : Option Nat :=
  (if '0' ≤ c ∧ c ≤ '9' then some (c.toNat - 48)
   else if 'a' ≤ c ∧ c ≤ 'f' then some (c.toNat - 87)
   else if 'A' ≤ c ∧ c ≤ 'F' then some (c.toNat - 55)
   else none).bind fun d => if d < base then some d else none

/-- Digits with underscores among them, after digits that had the value `n`: the value of all, and how many digits there are. -/
def rustDigits (base : Nat) (n k : Nat) : Str → Option (Nat × Nat)
  | [] => some (n, k)
  | c :: s => if c = '_' then rustDigits base n k s else (digitVal base c).bind fun d => rustDigits base (n * base + d) (k + 1) s

/-- The number that the digits are; there must be one. -/
def rustNumber (base : Nat) (s : Str) : Option Nat := (rustDigits base 0 0 s).bind fun p => if p.2 = 0 then none else some p.1

/-- Does the text begin with a decimal digit? -/
def startsWithDigit : Str → Bool
  | c :: _ => (digitVal 10 c).isSome
  | [] => false

/-- An integer literal without its suffix. -/
def rustNat : Str → Option Nat
  | '0' :: 'x' :: s => rustNumber 16 s
  | '0' :: 'o' :: s => rustNumber 8 s
  | '0' :: 'b' :: s => rustNumber 2 s
  | s => if startsWithDigit s then rustNumber 10 s else none

/-- `s` without `suffix` at its end. -/
def stripEnd (suffix s : Str) : Option Str :=
  if s.drop (s.length - suffix.length) = suffix then some (s.take (s.length - suffix.length)) else none

/-- The operand of a minus sign, if there is one. -/
def stripMinus : Str → Bool × Str
  | '-' :: s => (true, s)
  | s => (false, s)

/-- A literal of a signed integer type of `w` bits; out of range is an error (`overflowing_literals`). -/
def signedLit (w : Nat) (suffix s : Str) : Option Int :=
  (stripEnd suffix s).bind fun s =>
    (rustNat (stripMinus s).2).bind fun n =>
      if (stripMinus s).1 then if n ≤ 2 ^ (w - 1) then some (-n) else none
      else if n < 2 ^ (w - 1) then some n else none

/-- A literal of an unsigned integer type. -/
def unsignedLit (w : Nat) (suffix s : Str) : Option Nat :=
  (stripEnd suffix s).bind fun s => (rustNat s).bind fun n => if n < 2 ^ w then some n else none

/-- An exponent, or nothing. -/
def rustExponent : Str → Option Int
  | [] => some 0
  | c :: s =>
    if c = 'e' ∨ c = 'E' then
      match s with
      | '-' :: s => (rustNumber 10 s).map fun n : Nat => -(n : Int)
      | '+' :: s => (rustNumber 10 s).map fun n : Nat => (n : Int)
      | s => (rustNumber 10 s).map fun n : Nat => (n : Int)
    else none

/-- May the character be in the digits of a number? -/
def digitOrUnderscore (c : Char) : Bool := c = '_' ∨ (digitVal 10 c).isSome

/-- A floating-point literal without sign and suffix, or an integer: `m * 10 ^ e`. -/
def rustDecimal (s : Str) : Option (Nat × Int) :=
  if startsWithDigit s then
    (rustDigits 10 0 0 (s.takeWhile digitOrUnderscore)).bind fun p =>
      match s.dropWhile digitOrUnderscore with
      | '.' :: r =>
        if startsWithDigit r then
          (rustDigits 10 p.1 0 (r.takeWhile digitOrUnderscore)).bind fun q =>
            (rustExponent (r.dropWhile digitOrUnderscore)).map fun e => (q.1, e - q.2)
        else none
      | r => (rustExponent r).map fun e => (p.1, e)
  else none

/-- Rounding: the bits of the `f32` and the `f64` nearest to `(-1) ^ neg * m * 10 ^ e`. -/
structure Rounding where
  f32 : (neg : Bool) → (m : Nat) → (e : Int) → BitVec 32
  f64 : (neg : Bool) → (m : Nat) → (e : Int) → BitVec 64

/-- A floating-point literal with suffix, maybe negated. -/
def floatLit (suffix s : Str) : Option (Bool × Nat × Int) :=
  (stripEnd suffix s).bind fun s => (rustDecimal (stripMinus s).2).map fun p => ((stripMinus s).1, p)

/-- `\x..` -/
def hexByte (a b : Char) : Option Nat := (digitVal 16 a).bind fun x => (digitVal 16 b).map fun y => x * 16 + y

/-- The escapes of one character. -/
def rustEscape : Char → Option Nat
  | 'n' => some 10
  | 'r' => some 13
  | 't' => some 9
  | '\\' => some 92
  | '0' => some 0
  | '\'' => some 39
  | '"' => some 34
  | _ => none

/-- What is between the quotes of a string literal (`text`) or of a byte string literal: in a string `\x` is only for ASCII characters,
byte strings have only ASCII characters. -/
def quoted (text : Bool) : Str → Option Bytes
  | [] => some []
  | '\\' :: 'x' :: a :: b :: s => (hexByte a b).bind fun n => if text = true ∧ 128 ≤ n then none else (quoted text s).map fun r => BitVec.ofNat 8 n :: r
  | '\\' :: c :: s => (rustEscape c).bind fun n => (quoted text s).map fun r => BitVec.ofNat 8 n :: r
  | ['\\'] => none
  | c :: s =>
    if c = '"' ∨ c = '\r' ∨ c = '\n' ∨ (text = false ∧ 128 ≤ c.toNat) then none
    else (quoted text s).map fun r => Spec.utf8Char c.toNat ++ r

/-- The text between `a` and `b`. -/
def between (a b s : Str) : Option Str := if s.take a.length = a then stripEnd b (s.drop a.length) else none

/-- The value of a literal expression of type `t`. -/
def litValue (F : Rounding) (t : Ty) (s : Str) : Option RVal :=
  match t with
  | .i32 => (signedLit 32 (c! "i32") s).map fun n => .w32 (BitVec.ofInt 32 n)
  | .i64 => (signedLit 64 (c! "i64") s).map fun n => .w64 (BitVec.ofInt 64 n)
  | .u32 => (unsignedLit 32 (c! "u32") s).map fun n => .w32 (BitVec.ofNat 32 n)
  | .u64 => (unsignedLit 64 (c! "u64") s).map fun n => .w64 (BitVec.ofNat 64 n)
  | .f32 =>
    if s = c! "::core::f32::INFINITY" then some (.w32 0x7f800000#32)
    else if s = c! "::core::f32::NEG_INFINITY" then some (.w32 0xff800000#32)
    else if s = c! "::core::f32::NAN" then some (.w32 0x7fc00000#32)
    else (floatLit (c! "f32") s).map fun p => .w32 (F.f32 p.1 p.2.1 p.2.2)
  | .f64 =>
    if s = c! "::core::f64::INFINITY" then some (.w64 0x7ff0000000000000#64)
    else if s = c! "::core::f64::NEG_INFINITY" then some (.w64 0xfff0000000000000#64)
    else if s = c! "::core::f64::NAN" then some (.w64 0x7ff8000000000000#64)
    else (floatLit (c! "f64") s).map fun p => .w64 (F.f64 p.1 p.2.1 p.2.2)
  | .bool => if s = c! "true" then some (.bool true) else if s = c! "false" then some (.bool false) else none
  | .cowStr => (between (c! "Cow::Borrowed(\"") (c! "\")") s).bind fun s => (quoted true s).map .bytes
  | .cowBytes => (between (c! "Cow::Borrowed(b\"") (c! "\")") s).bind fun s => (quoted false s).map .bytes
  | .ref .str => (between (c! "\"") (c! "\"") s).bind fun s => (quoted true s).map .bytes
  | .ref .slice => (between (c! "b\"") (c! "\"") s).bind fun s => (quoted false s).map .bytes
  | _ => none

end QP.Rust
