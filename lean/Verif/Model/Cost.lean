import Verif.Spec.Weight
/-!
# How long decoding takes

The functions below follow the generated decoder and the reader (Model/Gen.lean, Model/Reader.lean), and count the work: 1 for reading a
number, tag or length (at most ten bytes), for finding out that the end of a message is reached, for an insertion into a map and for skipping
an unknown field; a string or `bytes` or a packed field of fixed-size numbers costs its length, a match over the tags of a message the number of its
tags, and a default value the number of its parts. The results of the reads are those of the model, so the work counted is that of the run,
whether it succeeds, fails or panics.
-/

namespace QP


/-- `while !r.is_eof() { … }` (`whileNotEof`): every iteration tests for the end, and does what `cost` counts. -/
def loopCost {A : Type} (step : A → RM A) (cost : A → BytesReader → Nat) : (fuel : Nat) → A → BytesReader → Nat
  | 0, _, _ => 0
  | fuel + 1, acc, r =>
    if r.is_eof then 1
    else 1 + cost acc r + match step acc r with
      | (.ok a, r') => loopCost step cost fuel a r'
      | _ => 0

/-- reader.rs 379-401, `read_len_varint` and `read_len`: the length, then `inner` with the limit set. -/
def lenCost (T : Target) (bytes : Bytes) (inner : BytesReader → Nat) (r : BytesReader) : Nat :=
  1 + match BytesReader.read_varint32 bytes r with
    | (.ok v, r1) =>
      match T.usizeAdd r1.start v.toNat with
      | .ok fin => inner ⟨r1.start, fin⟩
      | _ => 0
    | _ => 0

end QP

namespace QP.Gen
open QP.Pbrs BytesReader

/-- `readTyp` (types.rs 414-450): a number; the bytes up to the limit; a nested message. -/
def typCost (C : Ctx) (rdc : MessageIndex → Bytes → BytesReader → Nat) (t : FieldType) (bytes : Bytes) : BytesReader → Nat :=
  match t with
  | .stringCow | .string_ | .bytesCow | .bytes_ => lenCost C.T bytes fun r => ((getRange bytes r.start r.fin).getD []).length
  | .message m => lenCost C.T bytes (rdc m bytes)
  | _ => fun _ => 1

/-- reader.rs 504-529, one iteration of `read_map`. -/
def entryCost (C : Ctx) (rdc : MessageIndex → Bytes → BytesReader → Nat) (k v : FieldType) (bytes : Bytes) (r : BytesReader) : Nat :=
  1 + match read_u8 bytes r with
    | (.ok t, r1) =>
      if t >>> 3 = 1#8 then typCost C rdc k bytes r1
      else if t >>> 3 = 2#8 then typCost C rdc v bytes r1
      else 0
    | _ => 0

/-- reader.rs 453-477, `read_packed_fixed`. The bytes are borrowed; they are counted nevertheless. -/
def fixedCost {α : Type} (T : Target) (M : MemTy α) (bytes : Bytes) (r : BytesReader) : Nat :=
  1 + match read_packed_fixed T M bytes r with
    | (.ok p, _) => packedBytes M.size p
    | _ => 0

/-- `armRead` and `armApply` (types.rs 857-935, 2388-2424). -/
def armCost (C : Ctx) (rd : MessageIndex → Bytes → RM RVal) (rdc : MessageIndex → Bytes → BytesReader → Nat) (fuel : Nat) (a : Arm)
    (bytes : Bytes) : BytesReader → Nat :=
  if a.choice.isSome || a.field.boxed then typCost C rdc a.field.typ bytes
  else match a.field.frequency.generated with
    | .singular => typCost C rdc a.field.typ bytes
    | .arrayLike =>
      if a.field.isPacked then
        if a.field.typ.isFixedSize then
          if a.field.typ.wireTypeNumNonPacked = 1 then fixedCost C.T (MemTy.int C.T 8) bytes
          else fixedCost C.T (MemTy.int C.T 4) bytes
        else lenCost C.T bytes (loopCost (fun (acc : List RVal) => do let m ← readTyp C rd a.field.typ bytes; pure (m :: acc))
          (fun _ => typCost C rdc a.field.typ bytes) fuel [])
      else typCost C rdc a.field.typ bytes
    | .map =>
      match a.field.typ with
      | .map k v => fun r =>
        1 + (typDefault C k).weight + (typDefault C v).weight +
          lenCost C.T bytes (loopCost (fun (kv : RVal × RVal) => do
            let t ← read_u8 bytes
            let n := t >>> 3
            if n = 1#8 then do
              let k ← readTyp C rd k bytes
              pure (k, kv.2)
            else if n = 2#8 then do
              let v ← readTyp C rd v bytes
              pure (kv.1, v)
            else SM.throw (.Map n)) (fun _ => entryCost C rdc k v bytes) fuel (typDefault C k, typDefault C v)) r
      | _ => fun _ => 1

/-- `msgStep` (types.rs 1690-1706): the tag, the match, and the field. -/
def stepCost (C : Ctx) (rd : MessageIndex → Bytes → RM RVal) (rdc : MessageIndex → Bytes → BytesReader → Nat) (fuel : Nat)
    (as : List Arm) (bytes : Bytes) (r : BytesReader) : Nat :=
  1 + match next_tag bytes r with
    | (.ok t, r1) =>
      as.length + match as.find? (fun a => a.field.tag == t) with
        | Option.some a => armCost C rd rdc fuel a bytes r1
        | Option.none => 1
    | _ => 0

/-- `fromReader` (types.rs 1664-1718): the default value, then the loop. -/
def msgCost (C : Ctx) : (fuel : Nat) → MessageIndex → Bytes → BytesReader → Nat
  | 0, _, _, _ => 0
  | n + 1, idx, bytes, r =>
    match C.D.getMessage idx with
    | Option.none => 0
    | Option.some m =>
      (C.dflt idx).weight +
        if m.isUnit then 1
        else loopCost (msgStep C (fromReader C n) (n + 1) (arms C.cfg m) bytes)
          (fun _ => stepCost C (fromReader C n) (msgCost C n) (n + 1) (arms C.cfg m) bytes) (n + 1) (C.dflt idx).slots r

end QP.Gen
