import Verif.Model.Reader
/-!
# Loading a `Reader` from a source or a file

`Reader::from_reader` and `Reader::from_file` at the level of the calls to `std::io::Read::read`: the source answers every call as it likes
(short reads, interruptions, errors), the buffer that it is given is memory that was never initialised.
-/

namespace QP

/-- A byte of memory; `none` if nothing was written to it yet. -/
abbrev Cell := Option Byte

/-- What a call of `Read::read` returns: `Ok(n)`, `Err` of kind `Interrupted`, another `Err`. -/
inductive ReadEvent where
  | count (n : Nat)
  | interrupted
  | failed
deriving DecidableEq, Repr

/-- An implementation of `std::io::Read` with states `σ`: it gets the buffer, may look at it and write to it. (An implementation may also
override `read_exact`; this is not modelled.) -/
structure Source (σ : Type) where
  read : σ → List Cell → ReadEvent × List Cell × σ

/-- `std::io::Read::read_exact` (the default implementation of std): call `read` until the buffer is full. `Ok(0)` is the end of the source,
interruptions are ignored, other errors returned; a source that claims to have written more than the buffer holds makes `&mut buf[n..]`
panic. The result is the whole buffer. `fuel` bounds the number of calls. -/
def readExact {σ : Type} (src : Source σ) : (fuel : Nat) → List Cell → SM σ (List Cell)
  | 0, _, s => (.timeout, s)
  | fuel + 1, buf, s =>
    if buf.isEmpty then (.ok [], s)
    else
      match src.read s buf with
      | (.count n, buf', s') =>
        if n = 0 then (.err .Io, s')
        else if n ≤ buf.length then
          match readExact src fuel (buf'.drop n) s' with
          | (.ok rest, s'') => (.ok (buf'.take n ++ rest), s'')
          | (.err e, s'') => (.err e, s'')
          | (.panic, s'') => (.panic, s'')
          | (.ub, s'') => (.ub, s'')
          | (.timeout, s'') => (.timeout, s'')
        else (.panic, s')
      | (.interrupted, buf', s') => readExact src fuel buf' s'
      | (.failed, _, s') => (.err .Io, s')

/-- All bytes of a buffer, if all of them were written to. -/
def initialised : List Cell → Option Bytes
  | [] => some []
  | c :: l => match c, initialised l with
    | some b, some bs => some (b :: bs)
    | _, _ => none

/-- reader.rs 647-657, `Reader::from_reader(r, capacity)`: a vector of `capacity` bytes that are not initialised (`set_len`), then
`read_exact`, then `from_bytes`. A `Reader` with bytes that nobody wrote is undefined behaviour (of its first use at the latest). -/
def Reader.load {σ : Type} (src : Source σ) (fuel : Nat) (capacity : Nat) : SM σ Reader := fun s =>
  match readExact src fuel (List.replicate capacity none) s with
  | (.ok buf, s') =>
    (match initialised buf with
    | some bytes => (.ok (Reader.from_bytes bytes), s')
    | none => (.ub, s'))
  | (.err e, s') => (.err e, s')
  | (.panic, s') => (.panic, s')
  | (.ub, s') => (.ub, s')
  | (.timeout, s') => (.timeout, s')

/-- reader.rs 659-665, `Reader::from_file(src)`. `length`: the length of the file that `metadata` reports, `none` if it fails (then `unwrap`
panics); `opened`: the source that `File::open` gives some time later, `none` if it fails. The length, a `u64`, is cast to `usize`. -/
def Reader.from_file {σ : Type} (T : Target) (src : Source σ) (fuel : Nat) (length : Option Nat) (opened : Option σ) : Out Reader :=
  match length with
  | none => .panic
  | some len =>
    match opened with
    | none => .err .Io
    | some s => (Reader.load src fuel (len % 2 ^ T.usizeBits) s).1

end QP
