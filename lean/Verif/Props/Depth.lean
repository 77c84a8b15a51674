import Verif.Proofs.Depth
import Verif.Props.Decode
import Verif.Props.Owned
/-!
# C92: how deep the stack gets when decoding
-/

set_option linter.unusedVariables false

namespace QP.Gen
open QP.Pbrs Spec BytesReader

/-- The decoder with a bounded stack is the decoder: a value is decoded if and only if it is with some bound. -/
theorem readDeep_iff (C : Ctx) (idx : MessageIndex) (b : Bytes) (v : RVal) :
    (∃ n, (fromReader C n idx b (from_bytes b)).1 = .ok v) ↔ ∃ F d, (readDeep C F d idx b (from_bytes b)).1 = .ok v := by
  constructor
  · rintro ⟨n, h⟩
    refine ⟨n, n, ?_⟩
    rcases fromReader_waits C (F := n) n n idx b (Nat.le_refl _) (Nat.le_refl _) (from_bytes b) with h1 | h1
    · rw [h] at h1; cases h1
    · rw [h1]; exact h
  · rintro ⟨F, d, h⟩
    refine ⟨F + d, ?_⟩
    rcases waits_fromReader C (F := F) d (F + d) idx b (Nat.le_refl _) (from_bytes b) with h1 | h1
    · rw [h] at h1; cases h1
    · rw [h1]; exact h

/-- **C92**, for messages that cannot contain themselves: whatever the input and the profile, at most as many calls of `from_reader` are
open at the same time as the schema has messages. More stack makes no difference. -/
theorem C92_bounded_partial (C : Ctx) (hC : Resolved C) (idx : MessageIndex) (m : Message) (hm : C.D.getMessage idx = Option.some m)
    (hr : ¬ Recursive C idx) (F d : Nat) (hd : messageCount C ≤ d) (b : Bytes) :
    readDeep C F d idx b = readDeep C F (messageCount C) idx b := by
  obtain ⟨k, rfl⟩ : ∃ k, d = messageCount C + k := ⟨d - messageCount C, by omega⟩
  induction k with
  | zero => rfl
  | succ k ih =>
    rw [← ih (by omega)]
    refine (deep_stable hC F b (messageCount C + k) idx [] (by simp) ?_ (by simp) hr (by simp)).symm
    intro i hi
    rw [List.mem_singleton.mp hi]
    exact ⟨m, hm⟩

/-- … so what is decoded at all is decoded with that stack. -/
theorem C92_decode_partial (C : Ctx) (hC : Resolved C) (idx : MessageIndex) (m : Message) (hm : C.D.getMessage idx = Option.some m)
    (hr : ¬ Recursive C idx) (n : Nat) (b : Bytes) (v : RVal) (h : (fromReader C n idx b (from_bytes b)).1 = .ok v) :
    ∃ F, (readDeep C F (messageCount C) idx b (from_bytes b)).1 = .ok v := by
  obtain ⟨F, d, h1⟩ := (readDeep_iff C idx b v).mp ⟨n, h⟩
  refine ⟨F, ?_⟩
  rw [← C92_bounded_partial C hC idx m hm hr F (messageCount C + d) (by omega)]
  rcases waits_deep C (Nat.le_refl F) d (messageCount C + d) idx b (by omega) (from_bytes b) with h2 | h2
  · rw [h1] at h2; cases h2
  · rw [h2]; exact h1

/-- For every other message of every well-formed schema there is no limit: for every stack size `N` there is an input of at most `16 * N`
bytes that is a proper message and makes the decoder open more than `N` calls – in both profiles, and however often loops may iterate.
The stack of a process being finite, decoding it aborts. -/
theorem C92_refuted (C : Ctx) (hC : Resolved C) (hS : SchemaOk C) (idx : MessageIndex) (hr : Recursive C idx) (N : Nat)
    (h32 : 16 * N < 2 ^ 32) (hT : 16 * N < 2 ^ C.T.usizeBits) :
    ∃ b, b.length ≤ 16 * N ∧ (∃ v, decode C idx b = .ok v) ∧
      ∀ F, (readDeep C F N idx b (from_bytes b)).1 = .timeout := by
  obtain ⟨b, v, h1, h2, h3⟩ := deep_input hC hS N idx hr h32
  refine ⟨b, h1, ⟨v, C63_decode_complete C hS idx b v (by omega) ⟨_, h2⟩⟩, fun F => ?_⟩
  have := h3 F [] [] (by simp; omega)
  simpa [from_bytes] using this

/-- The example schema has a message that contains itself, … -/
theorem example_recursive (T : Target) : Recursive (Example.ctx T) [0] := by
  have h : Mentions (Example.ctx T) [0] [0] := by
    refine ⟨Example.node, (arms {} Example.node)[6]'(by decide), rfl, List.getElem_mem _, Or.inl ?_⟩
    decide
  exact ⟨[0], [0], Path.refl _, h, Path.refl _⟩

/-- … so on a 64-bit machine 64 MB make its decoder open four million calls. -/
example (T : Target) (h : T.usizeBits = 64) : ∃ b, b.length ≤ 2 ^ 26 ∧ (∃ v, decode (Example.ctx T) [0] b = .ok v) ∧
    ∀ F, (readDeep (Example.ctx T) F (2 ^ 22) [0] b (from_bytes b)).1 = .timeout := by
  obtain ⟨b, h1, h2⟩ := C92_refuted (Example.ctx T) (Example.resolved T) (Example.schemaOk T) [0] (example_recursive T) (2 ^ 22) (by decide)
    (by show 16 * 2 ^ 22 < 2 ^ T.usizeBits; rw [h]; decide)
  exact ⟨b, h1, h2⟩

/-- A schema in which no message contains itself: `message Box { int32 n = 1; Pair pair = 2; } message Pair { string key = 1; }`. -/
def boxMsg : Message :=
  { name := "Box".toList, fields := [Example.fId, { name := "pair".toList, frequency := .p3optional, typ := .message [1], number := 2 }], index := [0] }

def pairMsg : Message := { name := "Pair".toList, fields := [Example.fName], index := [1] }

def flatCtx (T : Target) : Ctx :=
  { T := T, D := { syntax_ := .proto3, messages := [boxMsg, pairMsg], enums := [] }, cfg := {},
    dflt := fun _ => .struct [.w32 0, .none], const := fun _ _ => .none }

theorem flat_get (T : Target) {idx : MessageIndex} {m : Message} (h : (flatCtx T).D.getMessage idx = Option.some m) :
    (idx = [0] ∧ m = boxMsg) ∨ (idx = [1] ∧ m = pairMsg) := by
  match idx with
  | [] => simp [FileDescriptor.getMessage] at h
  | [0] =>
    simp [FileDescriptor.getMessage, flatCtx, Message.descend] at h
    exact Or.inl ⟨rfl, h.symm⟩
  | [1] =>
    simp [FileDescriptor.getMessage, flatCtx, Message.descend] at h
    exact Or.inr ⟨rfl, h.symm⟩
  | 0 :: i :: is => simp [FileDescriptor.getMessage, flatCtx, Message.descend, boxMsg] at h
  | 1 :: i :: is => simp [FileDescriptor.getMessage, flatCtx, Message.descend, pairMsg] at h
  | (n + 2) :: is => simp [FileDescriptor.getMessage, flatCtx] at h

theorem flat_mentions (T : Target) {i j : MessageIndex} (h : Mentions (flatCtx T) i j) : i = [0] ∧ j = [1] := by
  obtain ⟨m, a, hm, ha, hin⟩ := h
  rcases flat_get T hm with ⟨rfl, rfl⟩ | ⟨rfl, rfl⟩
  · have ha : a ∈ [(⟨0, Example.fId, Option.none⟩ : Arm),
        ⟨1, { name := "pair".toList, frequency := .p3optional, typ := .message [1], number := 2 }, Option.none⟩] := ha
    simp only [List.mem_cons, List.not_mem_nil, or_false] at ha
    rcases ha with rfl | rfl
    · rcases hin with h | ⟨k, v, h, _⟩ <;> cases h
    · rcases hin with h | ⟨k, v, h, _⟩
      · exact ⟨rfl, (FieldType.message.inj h).symm⟩
      · cases h
  · have ha : a ∈ [(⟨0, Example.fName, Option.none⟩ : Arm)] := ha
    rw [List.mem_singleton.mp ha] at hin
    rcases hin with h | ⟨k, v, h, _⟩ <;> cases h

theorem flat_flat (T : Target) (i : MessageIndex) : ¬ Recursive (flatCtx T) i := by
  rintro ⟨c, j, _, h2, h3⟩
  obtain ⟨rfl, rfl⟩ := flat_mentions T h2
  rcases path_cases h3 with h | ⟨b, h, _⟩
  · cases h
  · have := (flat_mentions T h).1
    cases this

theorem flat_resolved (T : Target) : Resolved (flatCtx T) := by
  intro idx m hm a ha
  rcases flat_get T hm with ⟨rfl, rfl⟩ | ⟨rfl, rfl⟩
  · have ha : a ∈ [(⟨0, Example.fId, Option.none⟩ : Arm),
        ⟨1, { name := "pair".toList, frequency := .p3optional, typ := .message [1], number := 2 }, Option.none⟩] := ha
    simp only [List.mem_cons, List.not_mem_nil, or_false] at ha
    rcases ha with rfl | rfl
    · exact ⟨trivial, fun s h => by cases h⟩
    · exact ⟨⟨pairMsg, rfl⟩, fun s h => by cases h⟩
  · have ha : a ∈ [(⟨0, Example.fName, Option.none⟩ : Arm)] := ha
    rw [List.mem_singleton.mp ha]
    exact ⟨trivial, fun s h => by cases h⟩

/-- Two calls are enough for it, whatever the input. -/
example (T : Target) (F d : Nat) (h : 2 ≤ d) (b : Bytes) : readDeep (flatCtx T) F d [0] b = readDeep (flatCtx T) F 2 [0] b :=
  C92_bounded_partial (flatCtx T) (flat_resolved T) [0] boxMsg rfl (flat_flat T [0]) F d h b

end QP.Gen
