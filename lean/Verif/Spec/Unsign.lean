import Verif.Spec.Message
/-!
# Values up to the sign of zero

`0.0 == -0.0`, so a field without presence holding `-0.0` counts as unset and is not written. `unsign` makes those zeros
positive, at every depth; everything else is kept. (Rust's `==` does not tell the difference.)
-/

namespace QP.Gen
open QP.Pbrs

/-- In messages, at any depth. -/
def unsignTyp (sub : MessageIndex → RVal → RVal) (t : FieldType) (v : RVal) : RVal :=
  match t with
  | .message i => sub i v
  | _ => v

/-- A scalar in a field without presence: `-0.0` becomes `0.0`. -/
def unsignScalar (t : FieldType) (v : RVal) : RVal :=
  match t, v with
  | .float, .w32 x => .w32 (if x = 0x80000000#32 then 0 else x)
  | .double, .w64 x => .w64 (if x = 0x8000000000000000#64 then 0 else x)
  | _, _ => v

/-- A struct member. -/
def unsignMember (sub : MessageIndex → RVal → RVal) (mem : Member) (v : RVal) : RVal :=
  match mem with
  | .field f =>
    match f.frequency.generated with
    | .singular =>
      if f.frequency.isOptional then
        match v with
        | .some x => .some (unsignTyp sub f.typ x)
        | _ => v
      else if f.hasPresence then unsignTyp sub f.typ v
      else unsignScalar f.typ v
    | .arrayLike =>
      match v with
      | .vec l => .vec (l.map (unsignTyp sub f.typ))
      | _ => v
    | .map =>
      match f.typ, v with
      | .map k t, .map l => .map (l.map fun e => (unsignTyp sub k e.1, unsignTyp sub t e.2))
      | _, _ => v
  | .oneof fs =>
    match v with
    | .choice i x =>
      match fs[i]? with
      | Option.some f => .choice i (unsignTyp sub f.typ x)
      | Option.none => v
    | _ => v

/-- A value of message `idx`. -/
def unsign (C : Ctx) : (depth : Nat) → MessageIndex → RVal → RVal
  | 0, _, v => v
  | n + 1, idx, v =>
    match C.D.getMessage idx with
    | Option.none => v
    | Option.some m => .struct (List.zipWith (unsignMember (unsign C n)) (members C.cfg m) v.slots)

/-- Fields without presence have no `default` option (protoc rejects it on proto3 fields; pb-rs does not). -/
def NoDefaults (C : Ctx) : Prop :=
  ∀ idx m, C.D.getMessage idx = Option.some m → ∀ f, Member.field f ∈ members C.cfg m →
    f.frequency.generated = .singular → f.hasPresence = false → f.default = Option.none

end QP.Gen
