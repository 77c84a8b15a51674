import Verif.Model.Reader
/-!
# What it means for a read operation to be well behaved
-/

namespace QP

/-- The same reader in a buffer that has `n` more bytes in front. -/
def BytesReader.shift (n : Nat) (r : BytesReader) : BytesReader := ⟨n + r.start, n + r.fin⟩

/-- Indices a reader can reach: a length prefix is below `2^32`, so the limit never exceeds the
length of the buffer by more. -/
def BytesReader.InRange (bytes : Bytes) (r : BytesReader) : Prop :=
  r.start ≤ bytes.length + 2 ^ 32 ∧ r.fin ≤ bytes.length + 2 ^ 32

/-- `usize` has room for the buffer and a 32 bit length on top of it. True of every Rust slice on
a 64 bit target (slices have at most `2^63 - 1` bytes). -/
def Roomy (T : Target) (bytes : Bytes) : Prop := bytes.length + 2 ^ 34 ≤ 2 ^ T.usizeBits

theorem roomy64 (T : Target) (h : T.usizeBits = 64) (bytes : Bytes) (hb : bytes.length < 2 ^ 63) :
    Roomy T bytes := by
  unfold Roomy; rw [h]; omega

/-- A read operation is *orderly*: the position never moves backwards, a successful read leaves the
limit as it was, and the indices stay in range. -/
def Orderly (T : Target) {α : Type} (p : Bytes → RM α) : Prop :=
  ∀ bytes r, Roomy T bytes → r.InRange bytes → ∀ o r', p bytes r = (o, r') →
    r.start ≤ r'.start ∧ r'.InRange bytes ∧ ((∃ a, o = .ok a) → r'.fin = r.fin)

/-- A read operation is *local*: put any bytes in front of the buffer, and it does the same thing.
-/
def Local (T : Target) {α : Type} (p : Bytes → RM α) : Prop :=
  ∀ pre rest r, Roomy T (pre ++ rest) → r.InRange rest →
    p (pre ++ rest) (r.shift pre.length) = ((p rest r).1, (p rest r).2.shift pre.length)

end QP
