import Verif.Spec.Weight
/-!
# How long encoding takes

The functions follow the generated `get_size` and `write_message` (Model/Gen.lean) and count the work: 1 for a number, tag or length computed
or written and for a member looked at; the length for a string or `bytes` written or compared, and for a packed field of fixed-size numbers
written. `sc` and `wc` are the work of `get_size` and `write_message` of the nested messages.
-/

namespace QP.Gen
open QP.Pbrs

/-- types.rs 448-476, `get_size` of a value (`sizeTyp`): for a message that of its members. -/
def sizeTypCost (sc : MessageIndex → RVal → Nat) (t : FieldType) (v : RVal) : Nat :=
  match t with
  | .message m => 1 + sc m v
  | _ => 1

/-- writer.rs 97-223, writing a value (`writeTyp`). A message is measured (writer.rs 220), then written. -/
def writeTypCost (sc wc : MessageIndex → RVal → Nat) (t : FieldType) (v : RVal) : Nat :=
  match t with
  | .message m => 1 + sc m v + wc m v
  | _ =>
    match v with
    | .bytes b => 1 + b.length
    | _ => 1

/-- Comparing a value with the default of its field (types.rs 990-997, 1176-1186). -/
def compareCost (t : FieldType) (v : RVal) : Nat :=
  match t with
  | .message _ => 1
  | _ =>
    match v with
    | .bytes b => 1 + b.length
    | _ => 1

/-- types.rs 937-1049, `write_get_size` of a field (`sizeField`). -/
def sizeFieldCost (sc : MessageIndex → RVal → Nat) (f : Field) (v : RVal) : Nat :=
  match f.frequency.generated with
  | .singular =>
    match f.hasPresence, f.frequency.isOptional with
    | true, true =>
      match v with
      | .some x => 1 + sizeTypCost sc f.typ x
      | _ => 1
    | true, false => 1 + sizeTypCost sc f.typ v
    | false, false => compareCost f.typ v + sizeTypCost sc f.typ v
    | false, true => 1
  | .arrayLike =>
    if f.isPacked then
      match v with
      | .vec l => 1 + (l.map (sizeTypCost sc f.typ)).sum
      | _ => 1
    else
      match v with
      | .vec l =>
        if f.typ.wireTypeNumNonPacked = 1 then 1
        else if f.typ.wireTypeNumNonPacked = 5 then 1
        else 1 + (l.map (fun x => 1 + sizeTypCost sc f.typ x)).sum
      | _ => 1
  | .map =>
    match f.typ, v with
    | .map k t, .map l => 1 + (l.map (fun kv => sizeTypCost sc k kv.1 + sizeTypCost sc t kv.2)).sum
    | _, _ => 1

/-- types.rs 1082-1237, `write_write` of a field (`writeField`). Before the elements of a packed field, and before an entry of a map, their
sizes are computed. -/
def writeFieldCost (sc wc : MessageIndex → RVal → Nat) (f : Field) (v : RVal) : Nat :=
  match f.frequency.generated with
  | .singular =>
    match f.hasPresence, f.frequency.isOptional with
    | true, true =>
      match v with
      | .some x => 1 + writeTypCost sc wc f.typ x
      | _ => 1
    | true, false => 1 + writeTypCost sc wc f.typ v
    | false, false => compareCost f.typ v + writeTypCost sc wc f.typ v
    | false, true => 1
  | .arrayLike =>
    if f.isPacked then
      match v with
      | .pf64 p => 2 + packedBytes 8 p
      | .pf32 p => 2 + packedBytes 4 p
      | .vec l => 2 + (l.map (fun x => sizeTypCost sc f.typ x + writeTypCost sc wc f.typ x)).sum
      | _ => 1
    else
      match v with
      | .vec l => 1 + (l.map (fun x => 1 + writeTypCost sc wc f.typ x)).sum
      | _ => 1
  | .map =>
    match f.typ, v with
    | .map k t, .map l =>
      1 + (l.map (fun kv => 3 + (sizeTypCost sc k kv.1 + sizeTypCost sc t kv.2) + (writeTypCost sc wc k kv.1 + writeTypCost sc wc t kv.2))).sum
    | _, _ => 1

/-- types.rs 937-1049 and 2426-2476 (`sizeMember`). -/
def sizeMemberCost (sc : MessageIndex → RVal → Nat) (mem : Member) (v : RVal) : Nat :=
  match mem with
  | .field f => sizeFieldCost sc f v
  | .oneof fs =>
    match v with
    | .choice i x =>
      match fs[i]? with
      | Option.some f => 1 + sizeTypCost sc f.typ x
      | Option.none => 1
    | _ => 1

/-- types.rs 1082-1237 and 2478-2534 (`writeMember`). -/
def writeMemberCost (sc wc : MessageIndex → RVal → Nat) (mem : Member) (v : RVal) : Nat :=
  match mem with
  | .field f => writeFieldCost sc wc f v
  | .oneof fs =>
    match v with
    | .choice i x =>
      match fs[i]? with
      | Option.some f => 1 + writeTypCost sc wc f.typ x
      | Option.none => 1
    | _ => 1

/-- types.rs 1720-1753, the generated `get_size`: all members. -/
def sizeCost (C : Ctx) : (fuel : Nat) → MessageIndex → RVal → Nat
  | 0, _, _ => 0
  | n + 1, idx, v =>
    match C.D.getMessage idx with
    | Option.none => 0
    | Option.some m => (List.zipWith (sizeMemberCost (sizeCost C n)) (members C.cfg m) v.slots).sum

/-- types.rs 1898-1914, 1935-1960, the generated `write_message`: all members. -/
def writeCost (C : Ctx) : (fuel : Nat) → MessageIndex → RVal → Nat
  | 0, _, _ => 0
  | n + 1, idx, v =>
    match C.D.getMessage idx with
    | Option.none => 0
    | Option.some m => (List.zipWith (writeMemberCost (sizeCost C n) (writeCost C n)) (members C.cfg m) v.slots).sum

end QP.Gen
