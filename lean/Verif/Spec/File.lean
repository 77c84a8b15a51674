import Verif.Model.File
/-!
# Sources of bytes

What the documentation of `std::io::Read` asks of an implementation, and what reading from a file that does not change is.
-/

namespace QP

/-- The documented contract of `Read::read`: if it returns `Ok(n)`, then `n` is at most the length of the buffer and `n` bytes were written to
the beginning of the buffer. (A buffer does not change its length.) -/
def Honest {σ : Type} (src : Source σ) : Prop :=
  ∀ s buf, (src.read s buf).2.1.length = buf.length ∧
    ∀ n, (src.read s buf).1 = .count n → n ≤ buf.length ∧ ∃ bytes : Bytes, bytes.length = n ∧ (src.read s buf).2.1.take n = bytes.map some

/-- From state `s` the source delivered the bytes `bs` in some number of calls, and is then in state `s'`. -/
inductive Delivered {σ : Type} (src : Source σ) : σ → Bytes → σ → Prop
  | done {s} : Delivered src s [] s
  | chunk {s buf n buf' s' c bs s''} : src.read s buf = (.count n, buf', s') → c.length = n → buf'.take n = c.map some →
      Delivered src s' bs s'' → Delivered src s (c ++ bs) s''
  | interrupted {s buf buf' s' bs s''} : src.read s buf = (.interrupted, buf', s') → Delivered src s' bs s'' → Delivered src s bs s''

/-- A source that delivers a text that is fixed, such as a file that nobody changes: in state `s` what is left of it is `left s`. Each call delivers
some of what is left, as much as it likes but something unless nothing is left; or it is interrupted, at most `patience s` times in a row; it does
not fail. -/
structure Delivers {σ : Type} (src : Source σ) (left : σ → Bytes) (patience : σ → Nat) : Prop where
  size : ∀ s buf, (src.read s buf).2.1.length = buf.length
  count : ∀ s buf n, buf ≠ [] → (src.read s buf).1 = .count n →
    n ≤ buf.length ∧ n ≤ (left s).length ∧ (n = 0 → left s = []) ∧ (src.read s buf).2.1.take n = ((left s).take n).map some ∧
      left (src.read s buf).2.2 = (left s).drop n ∧ patience (src.read s buf).2.2 ≤ patience s
  interrupted : ∀ s buf, (src.read s buf).1 = .interrupted → left (src.read s buf).2.2 = left s ∧ patience (src.read s buf).2.2 < patience s
  works : ∀ s buf, (src.read s buf).1 ≠ .failed

end QP
