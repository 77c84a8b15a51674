import Verif.Model.Writer
import Verif.Model.Reader
import Verif.Spec.Wire
/-!
# What it means for a writer program to emit an encoding, and for a reader to read one
-/

namespace QP
open WriterBackend

/-- One call of a `WriterBackend` method. -/
inductive Op where
  | u8 (x : Byte)
  | u32 (x : BitVec 32)
  | i32 (x : BitVec 32)
  | f32 (x : BitVec 32)
  | u64 (x : BitVec 64)
  | i64 (x : BitVec 64)
  | f64 (x : BitVec 64)
  | all (bs : Bytes)

/-- Perform the call on a backend. -/
def Op.run {W : Type} [WriterBackend W] : Op → SM W Unit
  | .u8 x => pb_write_u8 x
  | .u32 x => pb_write_u32 x
  | .i32 x => pb_write_i32 x
  | .f32 x => pb_write_f32 x
  | .u64 x => pb_write_u64 x
  | .i64 x => pb_write_i64 x
  | .f64 x => pb_write_f64 x
  | .all bs => pb_write_all bs

/-- The bytes the call stands for: one byte, or a little-endian number, or the slice. -/
def Op.bytes : Op → Bytes
  | .u8 x => [x]
  | .u32 x => Spec.le 4 x.toNat
  | .i32 x => Spec.le 4 x.toNat
  | .f32 x => Spec.le 4 x.toNat
  | .u64 x => Spec.le 8 x.toNat
  | .i64 x => Spec.le 8 x.toNat
  | .f64 x => Spec.le 8 x.toNat
  | .all bs => bs

/-- Perform the calls one after the other, stopping at the first failure. -/
def runOps {W : Type} [WriterBackend W] : List Op → SM W Unit
  | [] => pure ()
  | o :: os => do o.run; runOps os

/-- A writer program, generic in the backend. -/
abbrev WProg := (W : Type) → [WriterBackend W] → SM W Unit

/-- The program, on every backend, performs one fixed sequence of primitive calls (stopping at the
first failure), and those calls stand for exactly the bytes `enc`. -/
def Emits (p : WProg) (enc : Bytes) : Prop :=
  ∃ ops : List Op, (∀ (W : Type) [WriterBackend W], p W = runOps ops) ∧ ops.flatMap Op.bytes = enc

/-- Wherever `enc` lies in a buffer (`pre` before it, `suf` after it), a reader standing at its
first byte, and whose limit is not before its end, reads it as `a` and stops right after it, with
its limit unchanged. -/
def ReadsAs (T : Target) {α : Type} (p : Bytes → RM α) (enc : Bytes) (a : α) : Prop :=
  ∀ (pre suf : Bytes) (fin : Nat),
    (pre ++ (enc ++ suf)).length < 2 ^ T.usizeBits →
    pre.length + enc.length ≤ fin →
    p (pre ++ (enc ++ suf)) ⟨pre.length, fin⟩ = (.ok a, ⟨pre.length + enc.length, fin⟩)

/-- The same for a decoder that runs up to the limit: the limit is exactly the end of `enc`. -/
def ReadsAll (T : Target) {α : Type} (p : Bytes → RM α) (enc : Bytes) (a : α) : Prop :=
  ∀ (pre suf : Bytes),
    (pre ++ (enc ++ suf)).length < 2 ^ T.usizeBits →
    p (pre ++ (enc ++ suf)) ⟨pre.length, pre.length + enc.length⟩
      = (.ok a, ⟨pre.length + enc.length, pre.length + enc.length⟩)

/-- A written value can be read back: the writer program emits some encoding, and that encoding is
read as `a` wherever it stands. (`Emits.unique`: a program has only one encoding.) -/
def RoundTrip (T : Target) {α : Type} (w : WProg) (r : Bytes → RM α) (a : α) : Prop :=
  ∃ enc : Bytes, Emits w enc ∧ ReadsAs T r enc a

end QP
