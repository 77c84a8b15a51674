import Verif.Proofs.EqualBytes
import Verif.Props.Equality
import Verif.Props.Messages
set_option linter.unusedVariables false
/-!
# C116: equal messages are written alike
-/

namespace QP.Gen
open QP.Pbrs Spec

/-- **C116**, sizes: messages that are `==` have the same `get_size`, whatever order their maps iterate in, borrowed or not. -/
theorem C116_size (C : Ctx) (hT : C.T.bigEndian = false) (hK : ScalarKeys C) (n : Nat) (idx : MessageIndex) (v w : RVal)
    (hv : WellTyped C AnyValue n idx v) (hw : WellTyped C AnyValue n idx w) (h : eqMsg C n idx v w = true) :
    (writeImpl C n idx).get_size v = (writeImpl C n idx).get_size w :=
  size_equal C hT n idx v w hv hw ((eqMsg_iff C hK n idx v w hv hw).mp h)

/-- **C116**, lengths: they are written with the same number of bytes. -/
theorem C116_length (C : Ctx) (hT : C.T.bigEndian = false) (hS : SchemaOk C) (hK : ScalarKeys C) (n : Nat) (idx : MessageIndex) (v w : RVal)
    (hv : WellTyped C AnyValue n idx v) (hw : WellTyped C AnyValue n idx w) (h : eqMsg C n idx v w = true)
    (hsz : (writeImpl C n idx).get_size v < 2 ^ 64) :
    ∃ e e', Emits ((writeImpl C n idx).write_message v) e ∧ Emits ((writeImpl C n idx).write_message w) e' ∧ e.length = e'.length := by
  have hs := C116_size C hT hK n idx v w hv hw h
  have h1 := exactWrite C hT hS n idx v hv hsz
  have h2 := exactWrite C hT hS n idx w hw (by omega)
  exact ⟨_, _, h1.1, h2.1, by rw [← h1.2.1, ← h2.2.1, hs]⟩

/-- **C116**, bytes: without negative zeros and without maps of two or more entries, messages that are `==` are written as the same bytes. -/
theorem C116_bytes_partial (C : Ctx) (hT : C.T.bigEndian = false) (hS : SchemaOk C) (hK : ScalarKeys C) (n : Nat) (idx : MessageIndex) (v w : RVal)
    (hv : WellTyped C AnyValue n idx v) (hw : WellTyped C AnyValue n idx w) (dv : Determined C n idx v) (dw : Determined C n idx w)
    (h : eqMsg C n idx v w = true) (hsz : (writeImpl C n idx).get_size v < 2 ^ 64) :
    ∃ e, Emits ((writeImpl C n idx).write_message v) e ∧ Emits ((writeImpl C n idx).write_message w) e := by
  have hs := C116_size C hT hK n idx v w hv hw h
  have h1 := C62_wire_format C hT hS n idx v hv hsz
  have h2 := C62_wire_format C hT hS n idx w hw (by omega)
  rw [← enc_equal C n idx v w hv hw dv dw ((eqMsg_iff C hK n idx v w hv hw).mp h)] at h2
  exact ⟨_, h1, h2⟩

/-! ## The example -/

namespace Example

/-- The value of the example, with one entry in its map. -/
def borrowedNums : RVal :=
  .struct [.w32 (-1), .bytes [0x61#8], .vec [.w64 (-5), .w64 3], .pf32 (.borrowed [1#8, 2#8, 3#8, 4#8]),
    .vec [.bytes [0x62#8], .bytes []], .map [(.bytes [0x6b#8], .w32 7)], .some leaf,
    .w32 0xc0490fdb#32, .w32 0, .choice 1 (.bytes [0xff#8])]

/-- The same, with an owned list of numbers. -/
def ownedNums : RVal :=
  .struct [.w32 (-1), .bytes [0x61#8], .vec [.w64 (-5), .w64 3], .pf32 (.owned [0x04030201#32]),
    .vec [.bytes [0x62#8], .bytes []], .map [(.bytes [0x6b#8], .w32 7)], .some leaf,
    .w32 0xc0490fdb#32, .w32 0, .choice 1 (.bytes [0xff#8])]

theorem typed_like (T : Target) (n : Nat) (p : PackedFixed (BitVec (8 * 4))) (hp : PfOk p) (l : List (RVal × RVal))
    (hl : ∀ e ∈ l, e = (.bytes [0x6b#8], .w32 7) ∨ e = (.bytes [], .w32 0)) (hd : l.Pairwise (fun a b => keyEq a.1 b.1 = false)) :
    WellTyped (ctx T) AnyValue (n + 2) [0] (.struct [.w32 (-1), .bytes [0x61#8], .vec [.w64 (-5), .w64 3], .pf32 p,
    .vec [.bytes [0x62#8], .bytes []], .map l, .some leaf, .w32 0xc0490fdb#32, .w32 0, .choice 1 (.bytes [0xff#8])]) := by
  refine wellTyped_of ?_ ?_ ?_ ?_ ?_ ?_ ?_ ?_ ?_ ?_
  · exact ⟨⟨_, rfl⟩, fun _ => trivial⟩
  · exact ⟨⟨_, rfl, utf8_a⟩, fun _ => trivial⟩
  · refine ⟨[.w64 (-5), .w64 3], rfl, ?_⟩
    intro x hx
    simp only [List.mem_cons, List.not_mem_nil, or_false] at hx
    rcases hx with rfl | rfl <;> exact ⟨_, rfl⟩
  · exact ⟨_, rfl, hp⟩
  · refine ⟨[.bytes [0x62#8], .bytes []], rfl, ?_⟩
    intro x hx
    simp only [List.mem_cons, List.not_mem_nil, or_false] at hx
    rcases hx with rfl | rfl
    · exact ⟨_, rfl, utf8_b⟩
    · exact ⟨_, rfl, utf8_nil⟩
  · refine ⟨_, _, l, rfl, rfl, ?_, hd⟩
    intro x hx
    rcases hl x hx with rfl | rfl
    · exact ⟨⟨_, rfl, utf8_k⟩, ⟨_, rfl⟩⟩
    · exact ⟨⟨_, rfl, utf8_nil⟩, ⟨_, rfl⟩⟩
  · exact Or.inr ⟨leaf, rfl, WellTyped.imp (Q' := AnyValue) (fun f v _ _ _ => trivial) (n + 1) [0] _ (leaf_typed T n)⟩
  · exact ⟨⟨_, rfl⟩, fun _ => trivial⟩
  · exact ⟨⟨_, rfl, (by decide : (0 : BitVec 32) ∈ [0#32, 5#32])⟩, fun _ => trivial⟩
  · exact Or.inr ⟨1, fB, _, rfl, rfl, ⟨_, rfl⟩⟩

theorem borrowedNums_typed (T : Target) : WellTyped (ctx T) AnyValue 2 [0] borrowedNums :=
  typed_like T 0 _ (by intro b h; cases h; exact ⟨1, rfl⟩) _ (by simp) (by simp)

theorem ownedNums_typed (T : Target) : WellTyped (ctx T) AnyValue 2 [0] ownedNums :=
  typed_like T 0 _ (by intro b h; cases h) _ (by simp) (by simp)

theorem shuffled_typed (T : Target) : WellTyped (ctx T) AnyValue 2 [0] shuffled :=
  typed_like T 0 _ (by intro b h; cases h) _ (by simp) (by simp [keyEq, scalarEq])

theorem leaf_determined (T : Target) : Determined (ctx T) 1 [0] leaf := by
  intro m hm p hp
  obtain ⟨-, rfl⟩ := get_node T [0] m hm
  rw [node_members] at hp
  simp only [leaf, RVal.slots, List.zip_cons_cons, List.zip_nil_left, List.mem_cons, List.not_mem_nil, or_false] at hp
  rcases hp with rfl | rfl | rfl | rfl | rfl | rfl | rfl | rfl | rfl | rfl <;>
    first
    | (simp [DeterminedMember, DeterminedTyp, fId, fName, fXs, fYs, fTags, fProps, fChild, fW, fKind, pfElems]; done)
    | (intro i f x h1 h2; cases h1; cases h2; trivial)

theorem determined_like (T : Target) (p : PackedFixed (BitVec (8 * 4))) :
    Determined (ctx T) 2 [0] (.struct [.w32 (-1), .bytes [0x61#8], .vec [.w64 (-5), .w64 3], .pf32 p,
    .vec [.bytes [0x62#8], .bytes []], .map [(.bytes [0x6b#8], .w32 7)], .some leaf, .w32 0xc0490fdb#32, .w32 0, .choice 1 (.bytes [0xff#8])]) := by
  intro m hm q hq
  obtain ⟨-, rfl⟩ := get_node T [0] m hm
  rw [node_members] at hq
  simp only [RVal.slots, List.zip_cons_cons, List.zip_nil_left, List.mem_cons, List.not_mem_nil, or_false] at hq
  rcases hq with rfl | rfl | rfl | rfl | rfl | rfl | rfl | rfl | rfl | rfl <;>
    first
    | exact leaf_determined T
    | (simp [DeterminedMember, DeterminedTyp, fId, fName, fXs, fYs, fTags, fProps, fChild, fW, fKind, pfElems]; done)
    | (intro i f x h1 h2; cases h1; cases h2; trivial)
    | (refine ⟨by simp, fun k t h e he => ?_⟩; cases h; trivial)

/-- Borrowed and owned numbers: equal, and written as the same bytes. -/
theorem C116_example : eqMsg (ctx Target.release64) 2 [0] borrowedNums ownedNums = true ∧
    ∃ e, Emits ((writeImpl (ctx Target.release64) 2 [0]).write_message borrowedNums) e ∧ Emits ((writeImpl (ctx Target.release64) 2 [0]).write_message ownedNums) e :=
  ⟨rfl, C116_bytes_partial (ctx Target.release64) rfl (schemaOk _) (scalarKeys _) 2 [0] borrowedNums ownedNums (borrowedNums_typed _) (ownedNums_typed _)
    (determined_like _ _) (determined_like _ _) rfl (by decide +kernel)⟩

/-- The bytes of equal messages may differ: two maps with the same entries, in another order. -/
theorem C116_refuted_order : ∃ v w, WellTyped (ctx Target.release64) AnyValue 2 [0] v ∧ WellTyped (ctx Target.release64) AnyValue 2 [0] w ∧
    eqMsg (ctx Target.release64) 2 [0] v w = true ∧
    ∃ e e', Emits ((writeImpl (ctx Target.release64) 2 [0]).write_message v) e ∧ Emits ((writeImpl (ctx Target.release64) 2 [0]).write_message w) e' ∧ e ≠ e' := by
  have hv := WellTyped.imp (Q' := AnyValue) (fun f v _ _ _ => trivial) 2 [0] _ (value_typed Target.release64 0)
  exact ⟨value, shuffled, hv, shuffled_typed _, rfl, _, _, C62_wire_format _ rfl (schemaOk _) 2 [0] value hv (by decide +kernel),
    C62_wire_format _ rfl (schemaOk _) 2 [0] shuffled (shuffled_typed _) (by decide +kernel), by decide +kernel⟩

/-- `message Z { optional float x = 1; }` -/
def fZ : Field := { name := "x".toList, frequency := .p2optional, typ := .float, number := 1 }
def msgZ : Message := { name := "Z".toList, fields := [fZ], index := [0] }
def ctxZ (T : Target) : Ctx := { T := T, D := { messages := [msgZ] }, cfg := {}, dflt := fun _ => .struct [.none], const := fun _ _ => .none }

theorem get_z (T : Target) {idx : MessageIndex} {m : Message} (h : (ctxZ T).D.getMessage idx = Option.some m) : idx = [0] ∧ m = msgZ := by
  match idx with
  | [] => simp [FileDescriptor.getMessage] at h
  | [0] =>
    simp [FileDescriptor.getMessage, ctxZ, Message.descend] at h
    exact ⟨rfl, h.symm⟩
  | 0 :: i :: is => simp [FileDescriptor.getMessage, ctxZ, Message.descend, msgZ] at h
  | (n + 1) :: is => simp [FileDescriptor.getMessage, ctxZ] at h

theorem schemaZ (T : Target) : SchemaOk (ctxZ T) := by
  intro idx m h
  obtain ⟨rfl, rfl⟩ := get_z T h
  refine ⟨?_, (by decide : ((arms {} msgZ).map (·.field.number)).Nodup)⟩
  intro mem hmem
  have hmem : mem ∈ [Member.field fZ] := hmem
  rw [List.mem_singleton.mp hmem]
  exact ⟨by decide, by decide, by decide, by decide⟩

theorem z_typed (T : Target) (x : BitVec 32) : WellTyped (ctxZ T) AnyValue 1 [0] (.struct [.some (.w32 x)]) := by
  refine ⟨msgZ, _, rfl, rfl, rfl, fun p hp => ?_⟩
  have hp : p ∈ [(Member.field fZ, RVal.some (.w32 x))] := hp
  rw [List.mem_singleton.mp hp]
  exact Or.inr ⟨_, rfl, _, rfl⟩

/-- Nor do zeros of different signs have the same bytes. -/
theorem C116_refuted_zero : ∃ v w, WellTyped (ctxZ Target.release64) AnyValue 1 [0] v ∧ WellTyped (ctxZ Target.release64) AnyValue 1 [0] w ∧
    eqMsg (ctxZ Target.release64) 1 [0] v w = true ∧
    ∃ e e', Emits ((writeImpl (ctxZ Target.release64) 1 [0]).write_message v) e ∧ Emits ((writeImpl (ctxZ Target.release64) 1 [0]).write_message w) e' ∧ e ≠ e' :=
  ⟨.struct [.some (.w32 0)], .struct [.some (.w32 0x80000000#32)], z_typed _ _, z_typed _ _, rfl, _, _,
    C62_wire_format _ rfl (schemaZ _) 1 [0] _ (z_typed _ _) (by decide +kernel),
    C62_wire_format _ rfl (schemaZ _) 1 [0] _ (z_typed _ _) (by decide +kernel), by decide +kernel⟩

end Example

end QP.Gen
