import Verif.Model.Pbrs.Types
/-!
# What a pass over the descriptor may change
-/

namespace QP.Pbrs

/-- The message with each field `f` (in oneofs too) replaced by `h f`, and its submessages dropped. -/
def Message.ownFields (h : Field → Field) (m : Message) : Message :=
  { m with messages := [], fields := m.fields.map h, oneofs := m.oneofs.map (fun o => { o with fields := o.fields.map h }) }

/-- `D'` is `D` in which each field `f` of the message at `i` was replaced by `H i f`, and nothing else was changed. -/
structure Rewritten (D D' : FileDescriptor) (H : MessageIndex → Field → Field) : Prop where
  messages : ∀ i, (D'.getMessage i).map (Message.ownFields id) = (D.getMessage i).map (Message.ownFields (H i))
  others : { D' with messages := [] } = { D with messages := [] }

/-- "Optional", in the syntax of the label. -/
def Frequency.optional : Frequency → Frequency
  | .p2optional | .p2repeated | .p2required | .p2map => .p2optional
  | .p3optional | .p3repeated | .p3default | .p3map => .p3optional

/-- `f'` is `f`, or `f` is a singular field of a message type and `f'` is `f` boxed and made optional. -/
def BoxedOptional (f f' : Field) : Prop :=
  f' = f ∨ ((∃ j, f.typ = .message j) ∧ f.frequency.isRepeated = false ∧ f'.frequency.isOptional = true ∧
    f'.frequency = f.frequency.optional ∧
    f' = { f with boxed := true, frequency := f'.frequency })

/-- `f'` is `f`, or `f` is an optional field of a message type and `f'` is `f` boxed. -/
def OnlyBoxed (f f' : Field) : Prop :=
  f' = f ∨ ((∃ j, f.typ = .message j) ∧ f.frequency.isOptional = true ∧ f' = { f with boxed := true })

end QP.Pbrs
