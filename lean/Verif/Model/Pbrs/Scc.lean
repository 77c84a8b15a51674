import Verif.Model.Pbrs.Types
/-!
# `pb-rs/src/scc.rs`

Simplifications: `usize`/`isize` are unbounded; the vectors `low` and `disc` are functions (their indices come from
`ids`, whose values are below their length).
-/

namespace QP.Pbrs

/-- The mutable arguments of `scc` (scc.rs 9-19): `count`, `low`, `disc`, `stack` (a `Vec` whose last element is the
head of the list), `sccs`. -/
structure TState where
  count : Int
  low : Nat → Int
  disc : Nat → Int
  stack : List Nat
  sccs : List (List Nat)

/-- `v[i] = x`. -/
def update (f : Nat → Int) (i : Nat) (x : Int) : Nat → Int := fun j => if j = i then x else f j

/-- scc.rs 42-49: `while let Some(w) = stack.pop() { scc.push(w); if w == u { break } }`. -/
def popUntil (u : Nat) : List Nat → List Nat × List Nat
  | [] => ([], [])
  | w :: ws => if w = u then ([w], ws) else (w :: (popUntil u ws).1, (popUntil u ws).2)

/-- scc.rs 26-39, the loop over the successors of `u`; `visit` is the recursive call. -/
def sccEdges (visit : Nat → TState → Option TState) (u : Nat) : List Nat → TState → Option TState
  | [], s => some s
  | v :: vs, s =>
    if s.disc v = -1 then
      match visit v s with
      | none => none
      | some s => sccEdges visit u vs { s with low := update s.low u (min (s.low u) (s.low v)) }
    else if v ∈ s.stack then
      sccEdges visit u vs { s with low := update s.low u (min (s.low u) (s.disc v)) }
    else sccEdges visit u vs s

/-- scc.rs 9-51, `scc`. `adj u` are the values of the iterator of lines 26-32. `fuel` bounds the recursion depth;
`none` is running out of it. -/
def scc (adj : Nat → List Nat) : (fuel : Nat) → Nat → TState → Option TState
  | 0, _, _ => none
  | n + 1, u, s =>
    match sccEdges (scc adj n) u (adj u)
        { s with disc := update s.disc u s.count, low := update s.low u s.count, count := s.count + 1,
                 stack := u :: s.stack } with
    | none => none
    | some s =>
      if s.low u = s.disc u then
        some { s with sccs := s.sccs ++ [(popUntil u s.stack).1], stack := (popUntil u s.stack).2 }
      else some s

/-- scc.rs 75-83, `for u in 0..vertices.len() { if disc[u] == -1 { scc(..) } }`. -/
def sccAll (adj : Nat → List Nat) (fuel : Nat) : List Nat → TState → Option TState
  | [], s => some s
  | u :: us, s =>
    if s.disc u = -1 then
      match scc adj fuel u s with
      | none => none
      | some s => sccAll adj fuel us s
    else sccAll adj fuel us s

/-- scc.rs 70-74, the initial state. -/
def TState.init : TState := ⟨0, fun _ => -1, fun _ => -1, [], []⟩

/-- scc.rs 70-84, all components, as vertex numbers. -/
def sccNumbers (adj : Nat → List Nat) (n : Nat) : Option (List (List Nat)) :=
  (sccAll adj (n + 1) (List.range n) TState.init).map (·.sccs)

/-- scc.rs 60-63, the loop of `flatten_messages`; the last element of `all_msgs` is the head of the list. `fuel` bounds
the iterations. Panics of `get_message` are `none`. -/
def flattenLoop (D : FileDescriptor) : (fuel : Nat) → List MessageIndex → List MessageIndex → Option (List MessageIndex)
  | _, [], acc => some acc
  | 0, _ :: _, _ => none
  | fuel + 1, m :: ms, acc =>
    match D.getMessage m with
    | none => none
    | some msg => flattenLoop D fuel ((msg.messages.map (·.index)).reverse ++ ms) (acc ++ [m])

mutual
/-- The number of messages in a message, itself included (only used as a bound for loops). -/
def Message.count : Message → Nat
  | ⟨_, _, _, _, _, _, _, messages, _, _, _⟩ => 1 + Message.countAll messages
/-- The number of messages in a list of messages. -/
def Message.countAll : List Message → Nat
  | [] => 0
  | m :: ms => m.count + Message.countAll ms
end

/-- scc.rs 53-65, `flatten_messages`. -/
def FileDescriptor.flattenMessages (D : FileDescriptor) : Option (List MessageIndex) :=
  flattenLoop D (Message.countAll D.messages) ((D.messages.map (·.index)).reverse) []

/-- scc.rs 26-32: `all_fields().filter(|f| !f.boxed && !f.frequency.is_repeated()).filter_map(|f| f.typ.message())`. -/
def Message.byValue (m : Message) : List MessageIndex :=
  (m.allFields.filter (fun f => !f.boxed && !f.frequency.isRepeated)).filterMap (·.typ.asMessage)

/-- scc.rs 69-73, `ids.get(m)`: `ids` maps the index of vertex `i` to `i`; on equal keys the last one is kept. -/
def idOf (vertices : List MessageIndex) (m : MessageIndex) : Option Nat :=
  (List.range vertices.length).reverse.find? (fun i => vertices[i]? == some m)

/-- scc.rs 26-33, the successors of vertex `u`. -/
def FileDescriptor.adj (D : FileDescriptor) (vertices : List MessageIndex) (u : Nat) : List Nat :=
  match (vertices[u]?).bind D.getMessage with
  | none => []
  | some m => m.byValue.filterMap (idOf vertices)

/-- scc.rs 67-88, `FileDescriptor::sccs`. Simplification: `ids` is built from the paths in `vertices` rather than from
the `index` stored in the message at that path (they are the same after `get_full_names`). -/
def FileDescriptor.sccs (D : FileDescriptor) : Option (List (List MessageIndex)) :=
  match D.flattenMessages with
  | none => none
  | some vertices =>
    (sccNumbers (D.adj vertices) vertices.length).map fun cs =>
      cs.map fun c => c.filterMap (fun i => vertices[i]?)

end QP.Pbrs
