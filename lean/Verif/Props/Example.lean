import Verif.Spec.Message
/-!
# A concrete schema and value

Used beside the theorems about generated code, to show that their hypotheses can be met.

```proto
syntax = "proto3";
enum Color { RED = 0; BLUE = 5; }
message Node {
  int32 id = 1;  string name = 2;  repeated sint64 xs = 3;  repeated fixed32 ys = 4;
  repeated string tags = 5;  map<string, int32> props = 6;  optional Node child = 7;
  float w = 8;  Color kind = 9;  int32 old = 10 [deprecated = true];
  oneof pick { bool a = 16; bytes b = 17; }
}
```
-/

namespace QP.Gen.Example
open QP.Pbrs Spec

def fId : Field := { name := "id".toList, frequency := .p3default, typ := .int32, number := 1 }
def fName : Field := { name := "name".toList, frequency := .p3default, typ := .stringCow, number := 2 }
def fXs : Field :=
  { name := "xs".toList, frequency := .p3repeated, typ := .sint64, number := 3, packed := some true }
def fYs : Field :=
  { name := "ys".toList, frequency := .p3repeated, typ := .fixed32, number := 4, packed := some true }
def fTags : Field := { name := "tags".toList, frequency := .p3repeated, typ := .stringCow, number := 5 }
def fProps : Field :=
  { name := "props".toList, frequency := .p3map, typ := .map .stringCow .int32, number := 6 }
def fChild : Field :=
  { name := "child".toList, frequency := .p3optional, typ := .message [0], number := 7, boxed := true }
def fW : Field := { name := "w".toList, frequency := .p3default, typ := .float, number := 8 }
def fKind : Field :=
  { name := "kind".toList, frequency := .p3default, typ := .enum ⟨[], 0⟩, number := 9 }
def fOld : Field :=
  { name := "old".toList, frequency := .p3default, typ := .int32, number := 10, deprecated := true }
def fA : Field := { name := "a".toList, frequency := .p3optional, typ := .bool, number := 16 }
def fB : Field := { name := "b".toList, frequency := .p3optional, typ := .bytesCow, number := 17 }

def pick : OneOf := { name := "pick".toList, fields := [fA, fB] }

def node : Message :=
  { name := "Node".toList, fields := [fId, fName, fXs, fYs, fTags, fProps, fChild, fW, fKind, fOld],
    oneofs := [pick], index := [0] }

def color : Enumerator := { name := "Color".toList, fields := [("RED".toList, 0), ("BLUE".toList, 5)] }

def desc : FileDescriptor := { syntax_ := .proto3, messages := [node], enums := [color] }

/-- The default `Node`. -/
def nodeDefault : RVal :=
  .struct [.w32 0, .bytes [], .vec [], .pf32 .noDataYet, .vec [], .map [], .none, .w32 0, .w32 0, .none]

/-- The world of the example, on target `T`. -/
def ctx (T : Target) : Ctx :=
  { T := T, D := desc, cfg := {}, dflt := fun _ => nodeDefault, const := fun _ _ => .none }

theorem node_members (T : Target) : members (ctx T).cfg node =
    [.field fId, .field fName, .field fXs, .field fYs, .field fTags, .field fProps, .field fChild,
      .field fW, .field fKind, .oneof [fA, fB]] := rfl

theorem get_node (T : Target) (idx : MessageIndex) (m : Message)
    (h : (ctx T).D.getMessage idx = Option.some m) : idx = [0] ∧ m = node := by
  match idx with
  | [] => simp [FileDescriptor.getMessage] at h
  | [0] =>
    simp [FileDescriptor.getMessage, ctx, desc, Message.descend] at h
    exact ⟨rfl, h.symm⟩
  | 0 :: i :: is =>
    simp [FileDescriptor.getMessage, ctx, desc, Message.descend, node] at h
  | (n + 1) :: is => simp [FileDescriptor.getMessage, ctx, desc] at h

theorem get_node0 (T : Target) : (ctx T).D.getMessage [0] = Option.some node := rfl

theorem schemaOk (T : Target) : SchemaOk (ctx T) := by
  intro idx m h
  obtain ⟨rfl, rfl⟩ := get_node T idx m h
  refine ⟨?_, (by decide : ((arms {} node).map (·.field.number)).Nodup)⟩
  rw [node_members]
  have hf : ∀ f : Field, (0 < f.number ∧ f.number < 2 ^ 29) → f.frequency.isMap = f.typ.isMap →
      (f.frequency.isRepeated = true → f.isPacked = true → f.typ.isPrimitive = true) →
      (f.boxed = true → f.frequency.isOptional = true) → MemberOk (.field f) :=
    fun f a b c d => ⟨a, b, c, d⟩
  intro mem hmem
  simp only [List.mem_cons, List.not_mem_nil, or_false] at hmem
  rcases hmem with rfl | rfl | rfl | rfl | rfl | rfl | rfl | rfl | rfl | rfl
  all_goals first
    | exact hf _ (by decide) (by decide) (by decide) (by decide)
    | (intro f hf
       simp only [List.mem_cons, List.not_mem_nil, or_false] at hf
       rcases hf with rfl | rfl <;> exact ⟨by decide⟩)

theorem isDefault (T : Target) : IsDefault (ctx T) := by
  intro idx m h
  obtain ⟨rfl, rfl⟩ := get_node T idx m h
  rfl

/-- A `Node` with a child: packed, borrowed, repeated, map and oneof members are all non-empty. -/
def leaf : RVal :=
  .struct [.w32 0, .bytes [0x68#8, 0x69#8], .vec [], .pf32 .noDataYet, .vec [], .map [], .none,
    .w32 0x3f800000#32, .w32 5, .choice 0 (.bool false)]

def value : RVal :=
  .struct [.w32 (-1), .bytes [0x61#8], .vec [.w64 (-5), .w64 3], .pf32 (.borrowed [1#8, 2#8, 3#8, 4#8]),
    .vec [.bytes [0x62#8], .bytes []], .map [(.bytes [0x6b#8], .w32 7), (.bytes [], .w32 0)], .some leaf,
    .w32 0xc0490fdb#32, .w32 0, .choice 1 (.bytes [0xff#8])]

theorem wellTyped_of {T : Target} {Q : Field → RVal → Prop} {n : Nat} {a0 a1 a2 a3 a4 a5 a6 a7 a8 a9 : RVal}
    (h0 : FieldTyped (ctx T) Q (WellTyped (ctx T) Q n) fId a0)
    (h1 : FieldTyped (ctx T) Q (WellTyped (ctx T) Q n) fName a1)
    (h2 : FieldTyped (ctx T) Q (WellTyped (ctx T) Q n) fXs a2)
    (h3 : FieldTyped (ctx T) Q (WellTyped (ctx T) Q n) fYs a3)
    (h4 : FieldTyped (ctx T) Q (WellTyped (ctx T) Q n) fTags a4)
    (h5 : FieldTyped (ctx T) Q (WellTyped (ctx T) Q n) fProps a5)
    (h6 : FieldTyped (ctx T) Q (WellTyped (ctx T) Q n) fChild a6)
    (h7 : FieldTyped (ctx T) Q (WellTyped (ctx T) Q n) fW a7)
    (h8 : FieldTyped (ctx T) Q (WellTyped (ctx T) Q n) fKind a8)
    (h9 : MemberTyped (ctx T) Q (WellTyped (ctx T) Q n) (.oneof [fA, fB]) a9) :
    WellTyped (ctx T) Q (n + 1) [0] (.struct [a0, a1, a2, a3, a4, a5, a6, a7, a8, a9]) := by
  refine ⟨node, _, get_node0 T, rfl, rfl, ?_⟩
  rw [node_members]
  intro p hp
  simp only [List.zip_cons_cons, List.zip_nil_left, List.mem_cons, List.not_mem_nil, or_false] at hp
  rcases hp with rfl | rfl | rfl | rfl | rfl | rfl | rfl | rfl | rfl | rfl
  · exact h0
  · exact h1
  · exact h2
  · exact h3
  · exact h4
  · exact h5
  · exact h6
  · exact h7
  · exact h8
  · exact h9

theorem utf8_nil : ValidUtf8 [] := ⟨[], by simp, rfl⟩

theorem utf8_a : ValidUtf8 [0x61#8] := ⟨[0x61], by simp [scalar], rfl⟩
theorem utf8_b : ValidUtf8 [0x62#8] := ⟨[0x62], by simp [scalar], rfl⟩
theorem utf8_k : ValidUtf8 [0x6b#8] := ⟨[0x6b], by simp [scalar], rfl⟩
theorem utf8_hi : ValidUtf8 [0x68#8, 0x69#8] := ⟨[0x68, 0x69], by simp [scalar], rfl⟩

theorem leaf_typed (T : Target) (n : Nat) : WellTyped (ctx T) Plain (n + 1) [0] leaf := by
  refine wellTyped_of ?_ ?_ ?_ ?_ ?_ ?_ ?_ ?_ ?_ ?_
  · exact ⟨⟨_, rfl⟩, fun _ => ⟨rfl, (fun h => by cases h), (fun h => by cases h)⟩⟩
  · exact ⟨⟨_, rfl, utf8_hi⟩, fun _ => ⟨rfl, (fun h => by cases h), (fun h => by cases h)⟩⟩
  · exact ⟨[], rfl, by simp⟩
  · exact ⟨_, rfl, by intro b h; cases h⟩
  · exact ⟨[], rfl, by simp⟩
  · exact ⟨_, _, [], rfl, rfl, by simp, by simp⟩
  · exact Or.inl rfl
  · exact ⟨⟨_, rfl⟩, fun _ => ⟨rfl, (fun _ h => by cases h), (fun h => by cases h)⟩⟩
  · exact ⟨⟨_, rfl, (by decide : (5 : BitVec 32) ∈ [0#32, 5#32])⟩, fun _ => ⟨rfl, (fun h => by cases h), (fun h => by cases h)⟩⟩
  · exact Or.inr ⟨0, fA, _, rfl, rfl, ⟨_, rfl⟩⟩

theorem value_typed (T : Target) (n : Nat) : WellTyped (ctx T) Plain (n + 2) [0] value := by
  refine wellTyped_of ?_ ?_ ?_ ?_ ?_ ?_ ?_ ?_ ?_ ?_
  · exact ⟨⟨_, rfl⟩, fun _ => ⟨rfl, (fun h => by cases h), (fun h => by cases h)⟩⟩
  · exact ⟨⟨_, rfl, utf8_a⟩, fun _ => ⟨rfl, (fun h => by cases h), (fun h => by cases h)⟩⟩
  · refine ⟨[.w64 (-5), .w64 3], rfl, ?_⟩
    intro x hx
    simp only [List.mem_cons, List.not_mem_nil, or_false] at hx
    rcases hx with rfl | rfl <;> exact ⟨_, rfl⟩
  · exact ⟨_, rfl, by intro b h; cases h; exact ⟨1, rfl⟩⟩
  · refine ⟨[.bytes [0x62#8], .bytes []], rfl, ?_⟩
    intro x hx
    simp only [List.mem_cons, List.not_mem_nil, or_false] at hx
    rcases hx with rfl | rfl
    · exact ⟨_, rfl, utf8_b⟩
    · exact ⟨_, rfl, utf8_nil⟩
  · refine ⟨_, _, [(.bytes [0x6b#8], .w32 7), (.bytes [], .w32 0)], rfl, rfl, ?_, ?_⟩
    · intro x hx
      simp only [List.mem_cons, List.not_mem_nil, or_false] at hx
      rcases hx with rfl | rfl
      · exact ⟨⟨_, rfl, utf8_k⟩, ⟨_, rfl⟩⟩
      · exact ⟨⟨_, rfl, utf8_nil⟩, ⟨_, rfl⟩⟩
    · simp [keyEq, scalarEq]
  · exact Or.inr ⟨leaf, rfl, leaf_typed T n⟩
  · exact ⟨⟨_, rfl⟩, fun _ => ⟨rfl, (fun _ h => by cases h), (fun h => by cases h)⟩⟩
  · exact ⟨⟨_, rfl, (by decide : (0 : BitVec 32) ∈ [0#32, 5#32])⟩, fun _ => ⟨rfl, (fun h => by cases h), (fun h => by cases h)⟩⟩
  · exact Or.inr ⟨1, fB, _, rfl, rfl, ⟨_, rfl⟩⟩

end QP.Gen.Example
