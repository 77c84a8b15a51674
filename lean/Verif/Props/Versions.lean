import Verif.Proofs.Versions
import Verif.Props.Example
/-!
# C93: programs built from different versions of a schema understand each other
-/

set_option linter.unusedVariables false

namespace QP.Gen
open QP.Pbrs Spec

/-- **C93**, framed. `W` and `R` are versions of a schema (`Versions`: fields may be added and removed at will; a field that both have
may be relabelled, moved into or out of a oneof, and its type converted within the families of `Convertible`). Whatever value a program
built from `W` writes with `serialize_into_vec`, a program built from `R` reads it, in both arithmetic profiles, and gets `v'`: in every
member what `Carried` says, at any depth of nesting. -/
theorem C93_versions_partial (W R : Ctx) (hT : W.T.bigEndian = false) (hW : SchemaOk W) (hR : SchemaOk R) (hD : IsDefault R)
    (P : MessageIndex → MessageIndex → Prop) (hV : Versions W R P) (hpW : PacksRepeated W) (hpR : PacksRepeated R)
    (n : Nat) (i i' : MessageIndex) (v : RVal) (hP : P i i') (hv : WellTyped W AnyValue n i v)
    (hsz : (writeImpl W n i).get_size v < 2 ^ 32) (hbits : sizeof_len ((writeImpl W n i).get_size v) < 2 ^ R.T.usizeBits) :
    ∃ bytes v', serialize_into_vec (writeImpl W n i) v = .ok bytes ∧ Carried W R n i i' v v' ∧
      ∀ fuel, bytes.length ≤ fuel → deserialize_from_slice R.T (fromReader R fuel i') bytes = .ok v' := by
  have hx := exactWrite W hT hW n i v hv (by omega)
  obtain ⟨bytes, h1, h2, h3, _⟩ := C27_vec_slice_agree _ _ _ hx
  have hl : (encMsg W n i v).length < 2 ^ 32 := by rw [← hx.2.1]; exact hsz
  obtain ⟨v', hd, hc⟩ := msg_carried hW hR hD hV hpW hpR n i i' v hP hv hl
  refine ⟨bytes, v', h1, hc, fun fuel hf => ?_⟩
  subst h2
  have hdl := delimited_length (encMsg W n i v)
  have hr := fromReader_of_dec hR n i' _ v' hd fuel (by omega)
  have := readsAs_len_varint (T := R.T) hl hr.weak [] [] (delimited (encMsg W n i v)).length
    (by simpa [h3] using hbits) (by simp)
  simp only [List.nil_append, List.append_nil, List.length_nil] at this
  simp only [deserialize_from_slice, BytesReader.read_message, BytesReader.from_bytes]
  rw [this]

/-- **C93**, unframed: `write_message`, then `from_reader` over exactly the emitted bytes. -/
theorem C93_unframed_partial (W R : Ctx) (hT : W.T.bigEndian = false) (hW : SchemaOk W) (hR : SchemaOk R) (hD : IsDefault R)
    (P : MessageIndex → MessageIndex → Prop) (hV : Versions W R P) (hpW : PacksRepeated W) (hpR : PacksRepeated R)
    (n : Nat) (i i' : MessageIndex) (v : RVal) (hP : P i i') (hv : WellTyped W AnyValue n i v)
    (hsz : (writeImpl W n i).get_size v < 2 ^ 32) (hbits : (writeImpl W n i).get_size v < 2 ^ R.T.usizeBits) :
    ∃ enc v', Emits ((writeImpl W n i).write_message v) enc ∧ Carried W R n i i' v v' ∧ decode R i' enc = .ok v' := by
  have hx := exactWrite W hT hW n i v hv (by omega)
  have hl : (encMsg W n i v).length < 2 ^ 32 := by rw [← hx.2.1]; exact hsz
  obtain ⟨v', hd, hc⟩ := msg_carried hW hR hD hV hpW hpR n i i' v hP hv hl
  exact ⟨_, v', hx.1, hc, C63_decode_complete R hR i' _ v' (by rw [← hx.2.1]; exact hbits) ⟨n, hd⟩⟩

/-- What `Carried` says of a field that has the same scalar type in both versions (no message; an enum only if all its values are known to
the reader): a value is carried as it is. -/
theorem carries_same {W R : Ctx} {subT : MessageIndex → RVal → Prop} {car : MessageIndex → MessageIndex → RVal → RVal → Prop} {t t' : FieldType} {x x' : RVal}
    (hx : HasType W subT t x) (hm : ∀ i, t ≠ .message i)
    (ht : t' = t ∨ ∃ e e', t = .enum e ∧ t' = .enum e' ∧ ∀ y ∈ W.enumNums e, y ∈ R.enumNums e')
    (he : ∀ e, t = .enum e → t' = t → ∀ y ∈ W.enumNums e, y ∈ R.enumNums e)
    (h : Carries R car t t' x x') : x' = x := by
  have hen : ∀ e e' y, HasType W subT (.enum e) (.w32 y) → (∀ y ∈ W.enumNums e, y ∈ R.enumNums e') → ofVarintInt R (.enum e') y.toInt = .w32 y := by
    intro e e' y hy hsub
    obtain ⟨z, hz, hmem⟩ := hy
    cases hz
    rw [ofVarintInt, BitVec.ofInt_toInt, if_pos (hsub _ hmem)]
  rcases ht with rfl | ⟨e, e', rfl, rfl, hsub⟩
  · cases t' <;> simp only [HasType] at hx
    case message i => exact absurd rfl (hm i)
    case enum e =>
      obtain ⟨y, rfl, hy⟩ := hx
      simp only [Carries, varintInt] at h
      rw [h]
      exact hen e e y ⟨y, rfl, hy⟩ (he e rfl rfl)
    all_goals
      obtain ⟨y, rfl, _⟩ := hx
      simp only [Carries, varintInt, ofVarintInt] at h
      rw [h]
    · rw [BitVec.ofInt_toInt]
    · rw [BitVec.ofInt_toInt]
    · rw [BitVec.ofInt_natCast, BitVec.ofNat_toNat, BitVec.setWidth_eq]
    · rw [BitVec.ofInt_natCast, BitVec.ofNat_toNat, BitVec.setWidth_eq]
    · cases y <;> rfl
  · obtain ⟨y, rfl, hy⟩ := hx
    simp only [Carries, varintInt] at h
    rw [h]
    exact hen e e' y ⟨y, rfl, hy⟩ hsub

/-! ## An example -/

namespace Later
open Example

/-! A later version of the schema of `Example`: `id` is now `int64`, `name` are bytes, `ys` are gone, `tags` is no longer repeated,
the values of `props` are `uint64`, `a` has left the oneof, `kind` has lost `BLUE`, `note` is new. The fields are in another order. -/
def fNote : Field := { name := "note".toList, frequency := .p3default, typ := .string_, number := 20 }
def fId : Field := { name := "id".toList, frequency := .p3default, typ := .int64, number := 1 }
def fName : Field := { name := "name".toList, frequency := .p3optional, typ := .bytes_, number := 2 }
def fXs : Field := { name := "xs".toList, frequency := .p3repeated, typ := .sint64, number := 3, packed := some true }
def fTags : Field := { name := "tags".toList, frequency := .p3default, typ := .string_, number := 5 }
def fProps : Field := { name := "props".toList, frequency := .p3map, typ := .map .string_ .uint64, number := 6 }
def fChild : Field := { name := "child".toList, frequency := .p3optional, typ := .message [0], number := 7, boxed := true }
def fKind : Field := { name := "kind".toList, frequency := .p3default, typ := .enum ⟨[], 0⟩, number := 9 }
def fA : Field := { name := "a".toList, frequency := .p3optional, typ := .bool, number := 16 }
def fB : Field := { name := "b".toList, frequency := .p3optional, typ := .bytes_, number := 17 }
def fC : Field := { name := "c".toList, frequency := .p3optional, typ := .bool, number := 18 }

def node : Message :=
  { name := "Node".toList, fields := [fNote, fA, fId, fName, fXs, fTags, fProps, fChild, fKind], oneofs := [{ name := "pick".toList, fields := [fC, fB] }], index := [0] }

def desc : FileDescriptor := { syntax_ := .proto3, messages := [node], enums := [{ name := "Color".toList, fields := [("RED".toList, 0)] }] }

def nodeDefault : RVal := .struct [.bytes [], .none, .w64 0, .none, .vec [], .bytes [], .map [], .none, .w32 0, .none]

def ctx (T : Target) : Ctx := { T := T, D := desc, cfg := {}, dflt := fun _ => nodeDefault, const := fun _ _ => .none }

theorem get_node (T : Target) (idx : MessageIndex) (m : Message) (h : (ctx T).D.getMessage idx = Option.some m) : idx = [0] ∧ m = node := by
  match idx with
  | [] => simp [FileDescriptor.getMessage] at h
  | [0] =>
    simp [FileDescriptor.getMessage, ctx, desc, Message.descend] at h
    exact ⟨rfl, h.symm⟩
  | 0 :: i :: is => simp [FileDescriptor.getMessage, ctx, desc, Message.descend, node] at h
  | (n + 1) :: is => simp [FileDescriptor.getMessage, ctx, desc] at h

theorem node_members (T : Target) : members (ctx T).cfg node =
    [.field fNote, .field fA, .field fId, .field fName, .field fXs, .field fTags, .field fProps, .field fChild, .field fKind, .oneof [fC, fB]] := rfl

theorem schemaOk (T : Target) : SchemaOk (ctx T) := by
  intro idx m h
  obtain ⟨rfl, rfl⟩ := get_node T idx m h
  refine ⟨?_, (by decide : ((arms {} node).map (·.field.number)).Nodup)⟩
  rw [node_members]
  have hf : ∀ f : Field, (0 < f.number ∧ f.number < 2 ^ 29) → f.frequency.isMap = f.typ.isMap →
      (f.frequency.isRepeated = true → f.isPacked = true → f.typ.isPrimitive = true) →
      (f.boxed = true → f.frequency.isOptional = true) → MemberOk (.field f) :=
    fun f a b c d => ⟨a, b, c, d⟩
  intro mem hmem
  simp only [List.mem_cons, List.not_mem_nil, or_false] at hmem
  rcases hmem with rfl | rfl | rfl | rfl | rfl | rfl | rfl | rfl | rfl | rfl
  all_goals first
    | exact hf _ (by decide) (by decide) (by decide) (by decide)
    | (intro f hf
       simp only [List.mem_cons, List.not_mem_nil, or_false] at hf
       rcases hf with rfl | rfl <;> exact ⟨by decide⟩)

theorem isDefault (T : Target) : IsDefault (ctx T) := by
  intro idx m h
  obtain ⟨rfl, rfl⟩ := get_node T idx m h
  rfl

theorem packsRepeated (T : Target) : PacksRepeated (ctx T) := by
  intro idx m h a ha
  obtain ⟨rfl, rfl⟩ := get_node T idx m h
  revert a
  exact (by decide : ∀ a ∈ arms ({} : Config) node, a.field.isPacked = true → a.kind = .arrayLike)

theorem packsRepeated' (T : Target) : PacksRepeated (Example.ctx T) := by
  intro idx m h a ha
  obtain ⟨rfl, rfl⟩ := Example.get_node T idx m h
  revert a
  exact (by decide : ∀ a ∈ arms ({} : Config) Example.node, a.field.isPacked = true → a.kind = .arrayLike)

/-- `Node` is `Node`. -/
def Same (i i' : MessageIndex) : Prop := i = [0] ∧ i' = [0]

theorem versions (T T' : Target) : Versions (Example.ctx T) (ctx T') Same := by
  constructor
  · rintro i i' ⟨rfl, rfl⟩
    exact ⟨node, rfl⟩
  · rintro i i' m m' ⟨rfl, rfl⟩ hm hm'
    obtain ⟨_, rfl⟩ := Example.get_node T _ m hm
    obtain ⟨_, rfl⟩ := get_node T' _ m' hm'
    intro a ha a' ha' hn
    have e1 : arms (Example.ctx T).cfg Example.node = [⟨0, Example.fId, Option.none⟩, ⟨1, Example.fName, Option.none⟩, ⟨2, Example.fXs, Option.none⟩,
      ⟨3, Example.fYs, Option.none⟩, ⟨4, Example.fTags, Option.none⟩, ⟨5, Example.fProps, Option.none⟩, ⟨6, Example.fChild, Option.none⟩,
      ⟨7, Example.fW, Option.none⟩, ⟨8, Example.fKind, Option.none⟩, ⟨9, Example.fA, Option.some 0⟩, ⟨9, Example.fB, Option.some 1⟩] := rfl
    have e2 : arms (ctx T').cfg node = [⟨0, fNote, Option.none⟩, ⟨1, fA, Option.none⟩, ⟨2, fId, Option.none⟩, ⟨3, fName, Option.none⟩, ⟨4, fXs, Option.none⟩,
      ⟨5, fTags, Option.none⟩, ⟨6, fProps, Option.none⟩, ⟨7, fChild, Option.none⟩, ⟨8, fKind, Option.none⟩, ⟨9, fC, Option.some 0⟩, ⟨9, fB, Option.some 1⟩] := rfl
    rw [e1] at ha
    rw [e2] at ha'
    simp only [List.mem_cons, List.not_mem_nil, or_false] at ha ha'
    rcases ha with rfl | rfl | rfl | rfl | rfl | rfl | rfl | rfl | rfl | rfl | rfl <;>
      rcases ha' with rfl | rfl | rfl | rfl | rfl | rfl | rfl | rfl | rfl | rfl | rfl <;>
      first
      | (exact absurd hn (by decide))
      | exact ⟨rfl, trivial⟩
      | exact ⟨rfl, rfl, rfl, by decide⟩
      | exact ⟨rfl, rfl, rfl⟩
      | exact ⟨_, _, _, _, rfl, rfl, trivial, rfl, rfl, by decide⟩

/-- The conditions are met by the two versions; what the later program gets from a message of the earlier one: `-1` sign-extended, the
last of the tags, the map with wider values, the child with its name (and `a`, which was set in the oneof), no `note`. -/
theorem C93_example : Carried (Example.ctx Target.debug64) (ctx Target.release64) 2 [0] [0] Example.value
      (.struct [.bytes [], .none, .w64 (-1), .some (.bytes [0x61#8]), .vec [.w64 (-5), .w64 3], .bytes [], .map [(.bytes [0x6b#8], .w64 7), (.bytes [], .w64 0)],
        .some (.struct [.bytes [], .some (.bool false), .w64 0, .some (.bytes [0x68#8, 0x69#8]), .vec [], .bytes [], .map [], .none, .w32 0, .none]),
        .w32 0, .choice 1 (.bytes [0xff#8])]) := by
  obtain ⟨enc, v', h1, h2, h3⟩ := C93_unframed_partial (Example.ctx Target.debug64) (ctx Target.release64) rfl (Example.schemaOk _) (schemaOk _) (isDefault _) Same
    (versions _ _) (packsRepeated' _) (packsRepeated _) 2 [0] [0] Example.value ⟨rfl, rfl⟩
    (WellTyped.imp (Q' := AnyValue) (fun _ _ _ _ _ => trivial) 2 [0] _ (Example.value_typed _ 0)) (by decide) (by decide)
  have e := h1.unique (C62_wire_format (Example.ctx Target.debug64) rfl (Example.schemaOk _) 2 [0] Example.value
    (WellTyped.imp (Q' := AnyValue) (fun _ _ _ _ _ => trivial) 2 [0] _ (Example.value_typed _ 0)) (by decide))
  subst e
  have : (match decode (ctx Target.release64) [0] (encMsg (Example.ctx Target.debug64) 2 [0] Example.value) with
      | .ok (.struct [.bytes b1, .none, .w64 x1, .some (.bytes b2), .vec [.w64 x2, .w64 x3], .bytes b3,
          .map [(.bytes b4, .w64 x4), (.bytes b5, .w64 x5)],
          .some (.struct [.bytes b6, .some (.bool c), .w64 x6, .some (.bytes b7), .vec [], .bytes b8, .map [], .none, .w32 x7, .none]),
          .w32 x8, .choice 1 (.bytes b9)]) =>
        decide ([b1, b2, b3, b4, b5, b6, b7, b8, b9] = [[], [0x61#8], [], [0x6b#8], [], [], [0x68#8, 0x69#8], [], [0xff#8]] ∧
          [x1, x2, x3, x4, x5, x6] = [-1, -5, 3, 7, 0, 0] ∧ [x7, x8] = [0, 0] ∧ c = false)
      | _ => false) = true := by decide +kernel
  rw [h3] at this
  split at this
  · rename_i heq
    cases heq
    have := of_decide_eq_true this
    simp only [List.cons.injEq, and_true] at this
    obtain ⟨⟨rfl, rfl, rfl, rfl, rfl, rfl, rfl, rfl, rfl⟩, ⟨rfl, rfl, rfl, rfl, rfl, rfl⟩, ⟨rfl, rfl⟩, rfl⟩ := this
    exact h2
  · cases this

end Later

/-! ## Conversions that protobuf allows and that fail -/

namespace Single

/-- `message M { t x = 1; }` -/
def fX (t : FieldType) : Field := { name := "x".toList, frequency := .p3default, typ := t, number := 1 }

def ctx (t : FieldType) : Ctx :=
  { T := Target.release64, D := { syntax_ := .proto3, messages := [{ name := "M".toList, fields := [fX t], index := [0] }] }, cfg := {},
    dflt := fun _ => .struct [fieldDefault { T := Target.release64, D := {}, cfg := {}, dflt := fun _ => .none, const := fun _ _ => .none } (fX t)],
    const := fun _ _ => .none }

theorem get_m (t : FieldType) (idx : MessageIndex) (m : Message) (h : (ctx t).D.getMessage idx = Option.some m) :
    idx = [0] ∧ m = { name := "M".toList, fields := [fX t], index := [0] } := by
  match idx with
  | [] => simp [FileDescriptor.getMessage] at h
  | [0] =>
    simp [FileDescriptor.getMessage, ctx, Message.descend] at h
    exact ⟨rfl, h.symm⟩
  | 0 :: i :: is => simp [FileDescriptor.getMessage, ctx, Message.descend] at h
  | (n + 1) :: is => simp [FileDescriptor.getMessage, ctx] at h

theorem schemaOk (t : FieldType) (ht : t.isMap = false) : SchemaOk (ctx t) := by
  intro idx m h
  obtain ⟨rfl, rfl⟩ := get_m t idx m h
  refine ⟨?_, by simp [arms, members, Field.visible, fX]⟩
  intro mem hmem
  have : mem = .field (fX t) := by simpa [members, Field.visible, fX] using hmem
  subst this
  exact ⟨(by decide : (0 : Int) < 1 ∧ (1 : Int) < 2 ^ 29), by rw [show (fX t).typ = t from rfl, ht]; rfl, fun h => absurd h (by decide : ¬ false = true),
    fun h => absurd h (by decide : ¬ false = true)⟩

theorem typed (t : FieldType) (x : RVal) (h : HasType (ctx t) (WellTyped (ctx t) AnyValue 0) t x) :
    WellTyped (ctx t) AnyValue 1 [0] (.struct [x]) := by
  refine ⟨_, _, rfl, rfl, rfl, ?_⟩
  intro p hp
  have : p = (.field (fX t), x) := by simpa [members, Field.visible, fX, ctx] using hp
  subst this
  exact ⟨h, fun _ => trivial⟩

end Single

/-- **C93** fails for `sint32` read as `sint64` (which protobuf declares compatible): `write_sint32` sign-extends the zigzag code, so that
`2^30` is written as ten bytes and read as `2^63 - 2^30`. -/
theorem C93_refuted_sint :
    Emits ((writeImpl (Single.ctx .sint32) 1 [0]).write_message (.struct [.w32 0x40000000#32]))
      [0x08#8, 0x80#8, 0x80#8, 0x80#8, 0x80#8, 0xf8#8, 0xff#8, 0xff#8, 0xff#8, 0xff#8, 0x01#8] ∧
    decode (Single.ctx .sint64) [0] [0x08#8, 0x80#8, 0x80#8, 0x80#8, 0x80#8, 0xf8#8, 0xff#8, 0xff#8, 0xff#8, 0xff#8, 0x01#8] =
      .ok (.struct [.w64 0x7fffffffc0000000#64]) := by
  refine ⟨?_, rfl⟩
  have h := C62_wire_format _ rfl (Single.schemaOk .sint32 rfl) 1 [0] _ (Single.typed .sint32 (.w32 0x40000000#32) ⟨_, rfl⟩) (by decide)
  rwa [show encMsg (Single.ctx .sint32) 1 [0] (.struct [.w32 0x40000000#32]) = [0x08#8, 0x80#8, 0x80#8, 0x80#8, 0x80#8, 0xf8#8, 0xff#8, 0xff#8, 0xff#8, 0xff#8, 0x01#8] from by decide +kernel] at h

/-- **C93** fails for `int64` read as `bool`: `2^32` is true to every other protobuf implementation, `read_bool` drops its upper half. -/
theorem C93_refuted_bool :
    Emits ((writeImpl (Single.ctx .int64) 1 [0]).write_message (.struct [.w64 0x100000000#64])) [0x08#8, 0x80#8, 0x80#8, 0x80#8, 0x80#8, 0x10#8] ∧
    decode (Single.ctx .bool) [0] [0x08#8, 0x80#8, 0x80#8, 0x80#8, 0x80#8, 0x10#8] = .ok (.struct [.bool false]) := by
  refine ⟨?_, rfl⟩
  have h := C62_wire_format _ rfl (Single.schemaOk .int64 rfl) 1 [0] _ (Single.typed .int64 (.w64 0x100000000#64) ⟨_, rfl⟩) (by decide)
  rwa [show encMsg (Single.ctx .int64) 1 [0] (.struct [.w64 0x100000000#64]) = [0x08#8, 0x80#8, 0x80#8, 0x80#8, 0x80#8, 0x10#8] from by decide +kernel] at h

end QP.Gen
