import Verif.Model.Gen
import Verif.Model.Pbrs.Resolve
import Verif.Spec.Graph
/-!
# Decoding with a bounded stack
-/

namespace QP.Gen
open QP.Pbrs Spec BytesReader

/-- The generated `from_reader` (types.rs 1664-1718, as `fromReader`), with the two things the fuel bounds kept apart: `loops` bounds the
iterations of each loop; the next number is how many calls of `from_reader` may be open at the same time, so how deep the stack may
get. One call more is `timeout` (the stack overflows). -/
def readDeep (C : Ctx) (loops : Nat) : (depth : Nat) → MessageIndex → Bytes → RM RVal
  | 0, _, _ => SM.lift .timeout
  | d + 1, idx, bytes =>
    match C.D.getMessage idx with
    | Option.none => SM.lift .panic
    | Option.some m =>
      if m.isUnit then do
        read_to_end
        pure (C.dflt idx)
      else do
        let slots ← whileNotEof (msgStep C (readDeep C loops d) loops (arms C.cfg m) bytes) loops (C.dflt idx).slots
        pure (.struct slots)

/-- The type `t` has values of message `j` in it. -/
def Inside (t : FieldType) (j : MessageIndex) : Prop :=
  t = .message j ∨ ∃ k v, t = .map k v ∧ (k = .message j ∨ v = .message j)

/-- Message `i` has a field (or variant of a oneof) with a value of message `j` in it. -/
def Mentions (C : Ctx) (i j : MessageIndex) : Prop :=
  ∃ m a, C.D.getMessage i = Option.some m ∧ a ∈ arms C.cfg m ∧ Inside a.field.typ j

/-- A message in which, directly or not, there is a message that can contain itself. -/
def Recursive (C : Ctx) (i : MessageIndex) : Prop :=
  ∃ c j, Path (Mentions C) i c ∧ Mentions C c j ∧ Path (Mentions C) j c

/-- The number of messages of the schema, nested ones included. -/
def messageCount (C : Ctx) : Nat := (Message.preorderAll [] 0 C.D.messages).length

end QP.Gen
