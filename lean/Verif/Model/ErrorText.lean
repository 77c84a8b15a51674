import Verif.Model.Basic
import Verif.Model.Pbrs.Doc
/-!
# `quick-protobuf/src/errors.rs`: the error type with everything it carries

The codec models use `QP.Error` (Model/Basic.lean), which leaves out payloads that do not influence what the codec does. Here is the whole type, its
texts and its conversions from and to `std::io::Error`.
-/

namespace QP.Fault
open QP.Pbrs

/-- `core::str::Utf8Error`: the index up to which the bytes are valid, and the length of the bad sequence (`None`: the input ends in it). -/
structure Utf8Error where
  valid_up_to : Nat
  error_len : Option Nat
deriving DecidableEq

/-- `std::io::ErrorKind`: the two kinds that errors.rs names, and all others. -/
inductive Kind where
  | InvalidData
  | Other
  | another (n : Nat)
deriving DecidableEq

mutual
  /-- errors.rs 4-29, `Error` (feature `std`). -/
  inductive Error where
    | Io (e : IoError)
    | Utf8 (e : Utf8Error)
    | Deprecated (feature : Str)
    | UnknownWireType (t : Byte)
    | Varint
    | Message (msg : Str)
    | Map (tag : Byte)
    | UnexpectedEndOfBuffer
    | OutputBufferTooSmall
  /-- `std::io::Error`: one of the operating system, or of a kind alone, or made with `io::Error::new`. -/
  inductive IoError where
    | os (code : Nat)
    | simple (k : Kind)
    | custom (k : Kind) (inner : Inner)
  /-- `Box<dyn std::error::Error>` in an `io::Error`: an error of this crate, of UTF-8, or one of another crate, which has a text. -/
  inductive Inner where
    | error (e : Error)
    | utf8 (e : Utf8Error)
    | foreign (text : Str)
end

/-- The texts that the standard library gives to errors of the system and to kinds. -/
structure Std where
  os : Nat → Str
  kind : Kind → Str
  /-- The kind of an error of the system. -/
  osKind : Nat → Kind

/-- `impl Display for Utf8Error` (core). -/
def Utf8Error.display (e : Utf8Error) : Str :=
  match e.error_len with
  | some n => c! "invalid utf-8 sequence of " ++ Nat.toDigits 10 n ++ c! " bytes from index " ++ Nat.toDigits 10 e.valid_up_to
  | none => c! "incomplete utf-8 byte sequence from index " ++ Nat.toDigits 10 e.valid_up_to

mutual
  /-- errors.rs 68-90, `impl Display for Error`. -/
  def Error.display (S : Std) : Error → Str
    | .Io e => IoError.display S e
    | .Utf8 e => e.display
    | .Deprecated feature => c! "Feature '" ++ feature ++ c! "' has been deprecated"
    | .UnknownWireType e => c! "Unknown wire type '" ++ Nat.toDigits 10 e.toNat ++ c! "', must be less than 6"
    | .Varint => c! "Cannot decode varint"
    | .Message msg => c! "Error while parsing message: " ++ msg
    | .Map tag => c! "Unexpected map tag: '" ++ Nat.toDigits 10 tag.toNat ++ c! "', expecting 1 or 2"
    | .UnexpectedEndOfBuffer => c! "Unexpected end of buffer"
    | .OutputBufferTooSmall => c! "Output buffer too small"
  /-- `impl Display for io::Error` (std): that of the error inside, if there is one. -/
  def IoError.display (S : Std) : IoError → Str
    | .os code => S.os code
    | .simple k => S.kind k
    | .custom _ inner => Inner.display S inner
  def Inner.display (S : Std) : Inner → Str
    | .error e => Error.display S e
    | .utf8 e => e.display
    | .foreign text => text
end

/-- `io::Error::kind` (std). -/
def IoError.kind (S : Std) : IoError → Kind
  | .os code => S.osKind code
  | .simple k => k
  | .custom k _ => k

/-- errors.rs 34-43, `impl From<Error> for io::Error`. -/
def Error.toIo : Error → IoError
  | .Io x => x
  | .Utf8 x => .custom .InvalidData (.utf8 x)
  | x => .custom .Other (.error x)

/-- errors.rs 45-50, `impl From<io::Error> for Error`. -/
def Error.ofIo (e : IoError) : Error := .Io e

/-- errors.rs 52-56, `impl From<Utf8Error> for Error`. -/
def Error.ofUtf8 (e : Utf8Error) : Error := .Utf8 e

/-- What `source` returns: `&io::Error` or `&Utf8Error`. -/
inductive Cause where
  | io (e : IoError)
  | utf8 (e : Utf8Error)

/-- errors.rs 58-66, `Error::source`. -/
def Error.source : Error → Option Cause
  | .Io e => some (.io e)
  | .Utf8 e => some (.utf8 e)
  | _ => none

/-- `source` of the causes (std): `io::Error` asks the error inside for its source, `Utf8Error` has none. Errors of other crates are taken to
have none. -/
def Cause.source : Cause → Option Cause
  | .io (.custom _ (.error e)) => e.source
  | _ => none

/-- `Display` of a cause. -/
def Cause.display (S : Std) : Cause → Str
  | .io e => e.display S
  | .utf8 e => e.display

/-- The error without its payload, as in the models of the codecs. -/
def Error.bare : Error → QP.Error
  | .Io _ => .Io
  | .Utf8 _ => .Utf8
  | .Deprecated _ => .Deprecated
  | .UnknownWireType t => .UnknownWireType t
  | .Varint => .Varint
  | .Message _ => .Message
  | .Map t => .Map t
  | .UnexpectedEndOfBuffer => .UnexpectedEndOfBuffer
  | .OutputBufferTooSmall => .OutputBufferTooSmall

end QP.Fault
