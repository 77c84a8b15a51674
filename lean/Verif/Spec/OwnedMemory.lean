import Verif.Model.OwnedMemory
/-!
# What a program that uses owned wrappers should see

The same operations on plain values: a wrapper holds its buffer and its strings, nothing points anywhere.
-/

namespace QP.Gen
open QP.Pbrs

/-- The values of the variables. -/
structure Values where
  vecs : Nat → Option Bytes
  owned : Nat → Option (Bytes × List Bytes)

def Values.start : Values := ⟨fun _ => Option.none, fun _ => Option.none⟩

/-- The string that is assigned. -/
def Src.value (V : Values) (old : List Bytes) : Src → Bytes
  | .keep i => old.getD i []
  | .own b => b
  | .static b => b
  | .borrow a off len => (((V.vecs a).getD []).drop off).take len

/-- The effect of an operation on values. -/
def Values.after (C : Ctx) (V : Values) : Op → Values
  | .vec a b => { V with vecs := put V.vecs a (Option.some b) }
  | .dropVec a => { V with vecs := put V.vecs a Option.none }
  | .tryFrom w a idx =>
    let b := (V.vecs a).getD []
    match tryFromSlice C (b.length + 1) idx b with
    | .ok v => ⟨put V.vecs a Option.none, put V.owned w (Option.some (b, v.slices))⟩
    | _ => { V with vecs := put V.vecs a Option.none }
  | .fromProto w _ src => { V with owned := put V.owned w (Option.some ([], src.map (Src.value V []))) }
  | .protoMut w src =>
    match V.owned w with
    | Option.some (b, old) => { V with owned := put V.owned w (Option.some (b, src.map (Src.value V old))) }
    | Option.none => V
  | .swap w w' =>
    match V.owned w, V.owned w' with
    | Option.some (b, p), Option.some (b', p') => { V with owned := put (put V.owned w (Option.some (b, p'))) w' (Option.some (b', p)) }
    | _, _ => V
  | .move w w' => { V with owned := put (put V.owned w Option.none) w' (V.owned w) }
  | .drop w => { V with owned := put V.owned w Option.none }

/-- The values after a program. -/
def expected (C : Ctx) (ops : List Op) : Values := ops.foldl (Values.after C) Values.start

/-- The wrappers are **safe** for a program if reading a wrapper is never undefined behaviour and gives the expected buffer and strings, at any time. -/
def SafeFor (C : Ctx) (ops : List Op) : Prop :=
  ∀ W, Run C ops W → ∀ w, W.buf w = ((expected C ops).owned w).map (fun p => .ok p.1) ∧ W.proto w = ((expected C ops).owned w).map (fun p => .ok p.2)

/-- What is assigned through `proto_mut` does not borrow from a local variable. -/
def Src.Lasting : Src → Prop
  | .borrow _ _ _ => False
  | _ => True

/-- An operation that does not store foreign borrows in a wrapper. -/
def Op.Tame : Op → Prop
  | .protoMut _ src => ∀ s ∈ src, s.Lasting
  | .swap _ _ => False
  | _ => True

end QP.Gen
