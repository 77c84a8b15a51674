import Verif.Model.Rust.Literals
import Verif.Spec.Pipeline
/-!
# What `[default = …]` means

The constants of the protocol buffer language (its specification: integer, floating-point, boolean and string literals), and which
value they are for a field of a given type. `d` is the text after `default =`; of strings the text between the quotes.
-/

namespace QP.Rust
open QP.Pbrs QP.Gen Spec

/-! ## Constants -/

/-- The number that digits are. -/
def digitsValue (base : Nat) (s : Str) : Nat := s.foldl (fun n c => n * base + (digitVal base c).getD 0) 0

/-- Digits of that base, at least one. -/
def Digits (base : Nat) (s : Str) : Prop := s ≠ [] ∧ ∀ c ∈ s, (digitVal base c).isSome = true

/-- An integer constant: decimal (no leading zero), octal or hexadecimal. -/
inductive IntText : Str → Nat → Prop
  | zero : IntText ['0'] 0
  | decimal (s : Str) : Digits 10 s → s.head? ≠ some '0' → IntText s (digitsValue 10 s)
  | octal (s : Str) : Digits 8 s → IntText ('0' :: s) (digitsValue 8 s)
  | hex (x : Char) (s : Str) : x = 'x' ∨ x = 'X' → Digits 16 s → IntText ('0' :: x :: s) (digitsValue 16 s)

/-- With sign. -/
inductive SignedText : Str → Int → Prop
  | plus (s : Str) (n : Nat) : IntText s n → SignedText s n
  | minus (s : Str) (n : Nat) : IntText s n → SignedText ('-' :: s) (-n)

/-- The exponent of a floating-point constant. -/
inductive ExpText : Str → Int → Prop
  | plus (c : Char) (sg s : Str) : c = 'e' ∨ c = 'E' → sg = [] ∨ sg = ['+'] → Digits 10 s → ExpText (c :: (sg ++ s)) (digitsValue 10 s)
  | minus (c : Char) (s : Str) : c = 'e' ∨ c = 'E' → Digits 10 s → ExpText (c :: '-' :: s) (-(digitsValue 10 s))

/-- A number without sign, `m * 10 ^ e`: an integer, or with an exponent, or with a point, before or after which there may be no digits
(but not both), and maybe an exponent. -/
inductive RealText : Str → Nat → Int → Prop
  | int (s : Str) (n : Nat) : IntText s n → RealText s n 0
  | exp (a x : Str) (e : Int) : Digits 10 a → ExpText x e → RealText (a ++ x) (digitsValue 10 a) e
  | point (a b x : Str) (e : Int) : (a ≠ [] ∨ b ≠ []) → (∀ c ∈ a ++ b, (digitVal 10 c).isSome = true) → (x = [] ∧ e = 0 ∨ ExpText x e) →
      RealText (a ++ '.' :: b ++ x) (digitsValue 10 (a ++ b)) (e - b.length)

/-- With sign. -/
inductive SignedReal : Str → Bool → Nat → Int → Prop
  | plus (s : Str) (m : Nat) (e : Int) : RealText s m e → SignedReal s false m e
  | minus (s : Str) (m : Nat) (e : Int) : RealText s m e → SignedReal ('-' :: s) true m e

/-- The escapes of one character. -/
def protoEscape : Char → Option Nat
  | 'a' => some 7
  | 'b' => some 8
  | 'f' => some 12
  | 'n' => some 10
  | 'r' => some 13
  | 't' => some 9
  | 'v' => some 11
  | '\\' => some 92
  | '\'' => some 39
  | '"' => some 34
  | '?' => some 63
  | _ => none

/-- The bytes a string constant is: `\`, then one of the characters above, or up to three octal digits, or `x` and up to two hexadecimal
digits, or `u` and four of them, or `U` and eight; anything else stands for itself (in UTF-8). No line breaks, no NUL. -/
def unescape : Str → Option Bytes
  | [] => some []
  | '\\' :: s =>
    match s with
    | [] => none
    | c :: s =>
      if c = 'x' ∨ c = 'X' then
        match s with
        | [] => none
        | a :: s =>
          (digitVal 16 a).bind fun x =>
            match s with
            | [] => some [BitVec.ofNat 8 x]
            | b :: s' =>
              match digitVal 16 b with
              | some y => (unescape s').map fun r => BitVec.ofNat 8 (x * 16 + y) :: r
              | none => (unescape (b :: s')).map fun r => BitVec.ofNat 8 x :: r
      else if c = 'u' then
        match s with
        | c1 :: c2 :: c3 :: c4 :: s => ([c1, c2, c3, c4].mapM (digitVal 16)).bind fun _ => (unescape s).map fun r => utf8Char (digitsValue 16 [c1, c2, c3, c4]) ++ r
        | _ => none
      else if c = 'U' then
        match s with
        | c1 :: c2 :: c3 :: c4 :: c5 :: c6 :: c7 :: c8 :: s =>
          ([c1, c2, c3, c4, c5, c6, c7, c8].mapM (digitVal 16)).bind fun _ => (unescape s).map fun r => utf8Char (digitsValue 16 [c1, c2, c3, c4, c5, c6, c7, c8]) ++ r
        | _ => none
      else match digitVal 8 c with
        | some x =>
          (match s with
          | [] => some [BitVec.ofNat 8 x]
          | b :: s' =>
            match digitVal 8 b with
            | none => (unescape (b :: s')).map fun r => BitVec.ofNat 8 x :: r
            | some y =>
              match s' with
              | [] => some [BitVec.ofNat 8 (x * 8 + y)]
              | b' :: s'' =>
                match digitVal 8 b' with
                | none => (unescape (b' :: s'')).map fun r => BitVec.ofNat 8 (x * 8 + y) :: r
                | some z => (unescape s'').map fun r => BitVec.ofNat 8 ((x * 8 + y) * 8 + z) :: r)
        | none => (protoEscape c).bind fun n => (unescape s).map fun r => BitVec.ofNat 8 n :: r
  | c :: s => if c = '\n' ∨ c = '\x00' then none else (unescape s).map fun r => utf8Char c.toNat ++ r

/-! ## Defaults -/

/-- Is it a NaN? -/
def isNan32 (x : BitVec 32) : Bool := x.extractLsb 30 23 = 0xff#8 ∧ x.extractLsb 22 0 ≠ 0#23
def isNan64 (x : BitVec 64) : Bool := x.extractLsb 62 52 = 0x7ff#11 ∧ x.extractLsb 51 0 ≠ 0#52

/-- For a field of type `t` (not an enum), `[default = d]` declares the value `x`. -/
inductive DeclaresDefault (F : Rounding) : FieldType → Str → RVal → Prop
  | s32 (t d i) : t = .int32 ∨ t = .sint32 ∨ t = .sfixed32 → SignedText d i → -2 ^ 31 ≤ i → i < 2 ^ 31 → DeclaresDefault F t d (.w32 (BitVec.ofInt 32 i))
  | s64 (t d i) : t = .int64 ∨ t = .sint64 ∨ t = .sfixed64 → SignedText d i → -2 ^ 63 ≤ i → i < 2 ^ 63 → DeclaresDefault F t d (.w64 (BitVec.ofInt 64 i))
  | u32 (t d n) : t = .uint32 ∨ t = .fixed32 → IntText d n → n < 2 ^ 32 → DeclaresDefault F t d (.w32 (BitVec.ofNat 32 n))
  | u64 (t d n) : t = .uint64 ∨ t = .fixed64 → IntText d n → n < 2 ^ 64 → DeclaresDefault F t d (.w64 (BitVec.ofNat 64 n))
  | float (d g m e) : SignedReal d g m e → DeclaresDefault F .float d (.w32 (F.f32 g m e))
  | floatInf : DeclaresDefault F .float (c! "inf") (.w32 0x7f800000#32)
  | floatNegInf : DeclaresDefault F .float (c! "-inf") (.w32 0xff800000#32)
  | floatNan (x) : isNan32 x = true → DeclaresDefault F .float (c! "nan") (.w32 x)
  | double (d g m e) : SignedReal d g m e → DeclaresDefault F .double d (.w64 (F.f64 g m e))
  | doubleInf : DeclaresDefault F .double (c! "inf") (.w64 0x7ff0000000000000#64)
  | doubleNegInf : DeclaresDefault F .double (c! "-inf") (.w64 0xfff0000000000000#64)
  | doubleNan (x) : isNan64 x = true → DeclaresDefault F .double (c! "nan") (.w64 x)
  | true_ : DeclaresDefault F .bool (c! "true") (.bool true)
  | false_ : DeclaresDefault F .bool (c! "false") (.bool false)
  | string (t d b) : t = .stringCow ∨ t = .string_ → unescape d = some b → ValidUtf8 b → DeclaresDefault F t d (.bytes b)
  | bytes (t d b) : t = .bytesCow ∨ t = .bytes_ → unescape d = some b → DeclaresDefault F t d (.bytes b)

/-! ## The constants that mean the same in Rust -/

/-- No octal number, and `0x` in lower case. -/
def plainNat : Str → Bool
  | ['0'] => true
  | '0' :: 'x' :: _ => true
  | '0' :: _ => false
  | _ => true

/-- A digit on both sides of the point; if there is neither point nor exponent, no octal or hexadecimal number. -/
def plainReal (s : Str) : Bool :=
  startsWithDigit s &&
  (match s.dropWhile (fun c => (digitVal 10 c).isSome) with
  | '.' :: r => startsWithDigit r
  | [] => s = ['0'] ∨ s.head? ≠ some '0'
  | c :: _ => c = 'e' || c = 'E')

/-- Only escapes that the two languages share; no double quote (in a string in single quotes); in byte strings only ASCII, in
strings no `\x` for other than ASCII. -/
def plainText (text : Bool) : Str → Bool
  | [] => true
  | '\\' :: 'x' :: a :: b :: s => (digitVal 16 a).isSome && (digitVal 16 b).isSome && (!text || digitsValue 16 [a, b] < 128) && plainText text s
  | '\\' :: c :: s => [ 'n', 'r', 't', '\\', '\'', '"'].contains c && plainText text s
  | ['\\'] => false
  | c :: s => !['"', '\r', '\n', '\x00'].contains c && (text || c.toNat < 128) && plainText text s

/-- The constant `d`, of a field of type `t`, is one that Rust reads as the protocol buffer language does. -/
def PlainDefault (t : FieldType) (d : Str) : Bool :=
  match t with
  | .int32 | .sint32 | .sfixed32 | .int64 | .sint64 | .sfixed64 => plainNat (stripMinus d).2
  | .uint32 | .fixed32 | .uint64 | .fixed64 => plainNat d
  | .float | .double => d = c! "inf" || d = c! "-inf" || d = c! "nan" || plainReal (stripMinus d).2
  | .stringCow | .string_ => plainText true d
  | .bytesCow | .bytes_ => plainText false d
  | _ => true

/-- The scalar types. -/
def FieldType.scalar : FieldType → Bool
  | .messageOrEnum _ | .message _ | .enum _ | .map _ _ => false
  | _ => true

end QP.Rust
