import Verif.Model.Pbrs.Scc
/-!
# `FileDescriptor::break_cycles` (`pb-rs/src/types.rs` 2803-2895)
-/

namespace QP.Pbrs

/-- types.rs 120-135, `get_message_mut` below a first message, and the caller's update `g` of the message. -/
def Message.modifyAt (g : Message → Message) (m : Message) : List Nat → Message
  | [] => g m
  | i :: is => { m with messages := m.messages.modify i (fun m' => m'.modifyAt g is) }

/-- types.rs 120-135, `MessageIndex::get_message_mut` and the caller's update. -/
def FileDescriptor.modifyMessage (D : FileDescriptor) (idx : MessageIndex) (g : Message → Message) : FileDescriptor :=
  match idx with
  | [] => D
  | i :: is => { D with messages := D.messages.modify i (fun m => m.modifyAt g is) }

/-- types.rs 2074-2080, a loop over `all_fields_mut` that replaces each field `f` by `h f`. -/
def Message.mapAllFields (h : Field → Field) (m : Message) : Message :=
  { m with fields := m.fields.map h, oneofs := m.oneofs.map (fun o => { o with fields := o.fields.map h }) }

/-- `f.typ.message().map_or(false, |m| cycle.contains(m))`. -/
def Field.inCycle (cycle : List MessageIndex) (f : Field) : Bool :=
  match f.typ.asMessage with
  | some m => cycle.contains m
  | none => false

/-- types.rs 2808-2815, `is_cycle`. -/
def isCycle (cycle : List MessageIndex) (D : FileDescriptor) : Bool :=
  cycle.any fun i =>
    match D.getMessage i with
    | some m => (m.allFields.filter (fun f => !f.boxed)).any (fun f => f.inCycle cycle)
    | none => false

/-- types.rs 2841-2848: `filter(is_optional).filter(in cycle)`, then `f.boxed = true`. -/
def boxOptional (cycle : List MessageIndex) (f : Field) : Field :=
  if f.frequency.isOptional && f.inCycle cycle then { f with boxed := true } else f

/-- types.rs 2878-2885: the frequency becomes optional in its syntax. -/
def Frequency.toOptional : Frequency → Frequency
  | .p2optional | .p2repeated | .p2required | .p2map => .p2optional
  | .p3optional | .p3repeated | .p3default | .p3map => .p3optional

/-- types.rs 2868-2886: `filter(!(is_optional || is_repeated)).filter(in cycle)`, then boxed and optional. -/
def requiredToOptional (cycle : List MessageIndex) (f : Field) : Field :=
  if !(f.frequency.isOptional || f.frequency.isRepeated) && f.inCycle cycle then
    { f with boxed := true, frequency := f.frequency.toOptional }
  else f

/-- `for v in cycle { for f in v.get_message_mut(self).all_fields_mut() { f = h(f) } }`. -/
def mapCycle (h : Field → Field) (cycle : List MessageIndex) (D : FileDescriptor) : FileDescriptor :=
  cycle.foldl (fun D v => D.modifyMessage v (Message.mapAllFields h)) D

/-- types.rs 2838-2890, the body of `for cycle in cycles`. `Error::Cycle` carries the names. -/
def breakCycle (errorCycle : Bool) (cycle : List MessageIndex) (D : FileDescriptor) : Except (List Str) FileDescriptor :=
  let D := mapCycle (boxOptional cycle) cycle D
  if isCycle cycle D then
    if errorCycle then .error (cycle.filterMap fun i => (D.getMessage i).map (·.name))
    else .ok (mapCycle (requiredToOptional cycle) cycle D)
  else .ok D

/-- `for x in xs { body(x)?; }` on a mutable `self`. -/
def forEach {α : Type} (body : α → FileDescriptor → Except (List Str) FileDescriptor) :
    List α → FileDescriptor → Except (List Str) FileDescriptor
  | [], D => .ok D
  | x :: xs, D =>
    match body x D with
    | .error e => .error e
    | .ok D => forEach body xs D

/-- types.rs 2830-2836: `all_fields().filter_map(typ.message()).filter_map(|m| scc[i..].iter().position(|n| n == m))`. -/
def cyclesAt (scc : List MessageIndex) (i : Nat) (D : FileDescriptor) : List Nat :=
  match (scc[i]?).bind D.getMessage with
  | some m => (m.allFields.filterMap (·.typ.asMessage)).filterMap (fun j => (scc.drop i).idxOf? j)
  | none => []

/-- types.rs 2828-2890, the body of `for (i, v) in scc.iter().enumerate()`; `cycle = &scc[i..i + cycle + 1]`. -/
def breakVertex (errorCycle : Bool) (scc : List MessageIndex) (i : Nat) (D : FileDescriptor) :
    Except (List Str) FileDescriptor :=
  forEach (fun k => breakCycle errorCycle ((scc.drop i).take (k + 1))) (cyclesAt scc i D) D

/-- types.rs 2803-2895, `break_cycles`; `none` when `sccs` does not return (which does not happen, see the proofs). -/
def FileDescriptor.breakCycles (D : FileDescriptor) (errorCycle : Bool) : Option (Except (List Str) FileDescriptor) :=
  D.sccs.map fun sccs =>
    forEach (fun scc => forEach (breakVertex errorCycle scc) (List.range scc.length)) sccs D

end QP.Pbrs
