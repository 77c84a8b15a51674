import Verif.Proofs.WriteCostTyped
import Verif.Props.Messages
import Verif.Props.Depth
/-!
# C112: how long encoding takes
-/

set_option linter.unusedVariables false

namespace QP.Gen
open QP.Pbrs Spec

/-- **C112**, `get_size`: computing the size of a value takes time proportional to the value, however deep it is. -/
theorem C112_get_size (C : Ctx) (n : Nat) (idx : MessageIndex) (v : RVal) : sizeCost C n idx v ≤ 2 * v.weight := by
  have := sizeCost_le C n idx v
  omega

/-- **C112**, `write_message`: the work is at most four units for every part of the value and every level of nesting. -/
theorem C112_depth_partial (C : Ctx) (Q : Field → RVal → Prop) (n : Nat) (idx : MessageIndex) (v : RVal) (h : WellTyped C Q n idx v) :
    ∀ N, n ≤ N → writeCost C N idx v ≤ 4 * n * v.weight := by
  intro N hN
  rw [(cost_stable n idx v N h hN).2]
  exact writeCost_le C n idx v

/-- **C112** for messages that cannot contain themselves: encoding takes time proportional to the value; the factor is four times the number
of messages of the schema. -/
theorem C112_linear_partial (C : Ctx) (hC : Resolved C) (Q : Field → RVal → Prop) (idx : MessageIndex) (hr : ¬ Recursive C idx) (n : Nat) (v : RVal)
    (h : WellTyped C Q n idx v) : ∀ N, n ≤ N → writeCost C N idx v ≤ 4 * messageCount C * v.weight := by
  intro N hN
  have hm : ∃ m, C.D.getMessage idx = Option.some m := by
    cases n with
    | zero => exact h.elim
    | succ n => obtain ⟨m, _, h1, _⟩ := h; exact ⟨m, h1⟩
  have h' := depth_bounded hC (messageCount C) n idx v [] (by simp) (fun i hi => by
    rw [List.mem_singleton.mp hi]; exact hm) (by simp) hr (by simp) h
  rw [← (cost_stable n idx v (N + messageCount C) h (by omega)).2.trans (cost_stable n idx v N h hN).2.symm]
  exact C112_depth_partial C Q _ idx v h' _ (by omega)

/-- The counter misses no byte: what is written, `get_size` bytes (C32), is at most ten bytes per unit. -/
theorem C112_counts (C : Ctx) (n : Nat) (idx : MessageIndex) (v : RVal) : (writeImpl C n idx).get_size v ≤ 10 * writeCost C n idx v :=
  get_size_counted C n idx v

namespace Example

/-- A `Node` with only a child. -/
def parent (child : RVal) : RVal :=
  .struct [.w32 0, .bytes [], .vec [], .pf32 .noDataYet, .vec [], .map [], child, .w32 0, .w32 0, .none]

/-- `k` nodes in one another. -/
def chain : Nat → RVal
  | 0 => parent .none
  | k + 1 => parent (.some (chain k))

theorem parent_typed (T : Target) (n : Nat) (child : RVal) (h : child = .none ∨ ∃ x, child = .some x ∧ WellTyped (ctx T) Plain n [0] x) :
    WellTyped (ctx T) Plain (n + 1) [0] (parent child) := by
  refine wellTyped_of ?_ ?_ ?_ ?_ ?_ ?_ ?_ ?_ ?_ ?_
  · exact ⟨⟨_, rfl⟩, fun _ => ⟨rfl, (fun h => by cases h), (fun h => by cases h)⟩⟩
  · exact ⟨⟨_, rfl, utf8_nil⟩, fun _ => ⟨rfl, (fun h => by cases h), (fun h => by cases h)⟩⟩
  · exact ⟨[], rfl, by simp⟩
  · exact ⟨_, rfl, by intro b h; cases h⟩
  · exact ⟨[], rfl, by simp⟩
  · exact ⟨_, _, [], rfl, rfl, by simp, List.Pairwise.nil⟩
  · exact h
  · exact ⟨⟨_, rfl⟩, fun _ => ⟨rfl, (fun _ h => by cases h), (fun h => by cases h)⟩⟩
  · exact ⟨⟨_, rfl, (by decide : (0 : BitVec 32) ∈ [0#32, 5#32])⟩, fun _ => ⟨rfl, (fun h => by cases h), (fun h => by cases h)⟩⟩
  · exact Or.inl rfl

theorem chain_typed (T : Target) : ∀ k, WellTyped (ctx T) Plain (k + 1) [0] (chain k)
  | 0 => parent_typed T 0 _ (Or.inl rfl)
  | k + 1 => parent_typed T (k + 1) _ (Or.inr ⟨_, rfl, chain_typed T k⟩)

theorem size_parent (T : Target) (n : Nat) (x : RVal) : sizeCost (ctx T) n [0] x + 1 ≤ sizeCost (ctx T) (n + 1) [0] (parent (.some x)) := by
  have e : sizeCost (ctx T) (n + 1) [0] (parent (.some x)) = [2, 2, 1, 1, 1, 1, 1 + (1 + sizeCost (ctx T) n [0] x), 2, 2, 1].sum := rfl
  rw [e]
  simp only [List.sum_cons, List.sum_nil]
  omega

theorem write_parent (T : Target) (n : Nat) (x : RVal) :
    sizeCost (ctx T) n [0] x + writeCost (ctx T) n [0] x + 1 ≤ writeCost (ctx T) (n + 1) [0] (parent (.some x)) := by
  have e : writeCost (ctx T) (n + 1) [0] (parent (.some x)) =
      [2, 2, 2, 2, 1, 1, 1 + (1 + sizeCost (ctx T) n [0] x + writeCost (ctx T) n [0] x), 2, 2, 1].sum := rfl
  rw [e]
  simp only [List.sum_cons, List.sum_nil]
  omega

theorem get_size_parent (T : Target) (n : Nat) (x : RVal) :
    (writeImpl (ctx T) (n + 1) [0]).get_size (parent (.some x)) = 1 + sizeof_len ((writeImpl (ctx T) n [0]).get_size x) := by
  have e : (writeImpl (ctx T) (n + 1) [0]).get_size (parent (.some x)) =
      [0, 0, 0, 0, 0, 0, 1 + sizeof_len ((writeImpl (ctx T) n [0]).get_size x), 0, 0, 0].sum := rfl
  rw [e]
  simp only [List.sum_cons, List.sum_nil]
  omega

theorem chain_facts (T : Target) : ∀ k, k ≤ sizeCost (ctx T) (k + 1) [0] (chain k) ∧ k * k ≤ 2 * writeCost (ctx T) (k + 1) [0] (chain k) ∧
    (writeImpl (ctx T) (k + 1) [0]).get_size (chain k) ≤ 11 * k ∧ (chain k).weight ≤ 11 + 12 * k
  | 0 => ⟨Nat.zero_le _, Nat.zero_le _, Nat.le_refl _, by decide⟩
  | k + 1 => by
    obtain ⟨h1, h2, h3, h4⟩ := chain_facts T k
    have s := size_parent T (k + 1) (chain k)
    have w := write_parent T (k + 1) (chain k)
    have g := get_size_parent T (k + 1) (chain k)
    have := sizeof_len_le ((writeImpl (ctx T) (k + 1) [0]).get_size (chain k))
    refine ⟨?_, ?_, ?_, ?_⟩
    · show _ ≤ sizeCost (ctx T) (k + 1 + 1) [0] (parent (.some (chain k)))
      omega
    · show _ ≤ 2 * writeCost (ctx T) (k + 1 + 1) [0] (parent (.some (chain k)))
      rw [Nat.add_mul, Nat.mul_add]
      omega
    · show (writeImpl (ctx T) (k + 1 + 1) [0]).get_size (parent (.some (chain k))) ≤ _
      omega
    · have e : (parent (.some (chain k))).weight = 1 + [1, 1, 1, 1, 1, 1, 1 + (chain k).weight, 1, 1, 1].sum := rfl
      show (parent (.some (chain k))).weight ≤ _
      rw [e]
      simp only [List.sum_cons, List.sum_nil]
      omega

end Example

/-- In general encoding takes more time than any multiple of the value and of the bytes written: the size of every nested message is computed
again for each message around it. (Nodes in one another: the work is quadratic.) -/
theorem C112_refuted (T : Target) (K : Nat) : ∃ n v, WellTyped (Example.ctx T) Plain n [0] v ∧
    K * (v.weight + (writeImpl (Example.ctx T) n [0]).get_size v) < writeCost (Example.ctx T) n [0] v := by
  refine ⟨46 * K + 23 + 1, Example.chain (46 * K + 23), Example.chain_typed T _, ?_⟩
  obtain ⟨-, h2, h3, h4⟩ := Example.chain_facts T (46 * K + 23)
  have h5 : K * ((Example.chain (46 * K + 23)).weight + (writeImpl (Example.ctx T) (46 * K + 23 + 1) [0]).get_size (Example.chain (46 * K + 23)))
      ≤ K * (11 + 23 * (46 * K + 23)) := Nat.mul_le_mul_left _ (by omega)
  have h6 : (46 * K + 23) * (46 * K + 23) = 2 * (K * (11 + 23 * (46 * K + 23))) + (23 * (46 * K + 23) - 22 * K) := by
    have : K * (11 + 23 * (46 * K + 23)) = 11 * K + 23 * (K * (46 * K + 23)) := by
      rw [Nat.mul_add, Nat.mul_left_comm, Nat.mul_comm K 11]
    rw [this, Nat.add_mul, Nat.mul_assoc]
    omega
  omega

/-- The bound for the value of the example, which is two levels deep: at most 336; it is 87. -/
example : writeCost (Example.ctx Target.debug64) 10 [0] Example.value ≤ 336 :=
  C112_depth_partial _ Plain 2 [0] _ (Example.value_typed _ 0) 10 (by omega)

example : writeCost (Example.ctx Target.debug64) 10 [0] Example.value = 87 := by rfl

/-- The hypotheses of `C112_linear_partial` are met, with a nested message. -/
example (T : Target) : WellTyped (flatCtx T) AnyValue 2 [0] (.struct [.w32 5, .some (.struct [.bytes [0x61#8]])]) ∧
    ∀ N, 2 ≤ N → writeCost (flatCtx T) N [0] (.struct [.w32 5, .some (.struct [.bytes [0x61#8]])]) ≤ 4 * 2 * 6 := by
  have h : WellTyped (flatCtx T) AnyValue 2 [0] (.struct [.w32 5, .some (.struct [.bytes [0x61#8]])]) := by
    refine ⟨boxMsg, _, rfl, rfl, rfl, fun p hp => ?_⟩
    have hp : p ∈ [(Member.field Example.fId, RVal.w32 5),
        (Member.field { name := "pair".toList, frequency := .p3optional, typ := .message [1], number := 2 }, RVal.some (.struct [.bytes [0x61#8]]))] := hp
    simp only [List.mem_cons, List.not_mem_nil, or_false] at hp
    rcases hp with rfl | rfl
    · exact ⟨⟨_, rfl⟩, fun _ => trivial⟩
    · refine Or.inr ⟨_, rfl, pairMsg, _, rfl, rfl, rfl, fun p hp => ?_⟩
      have hp : p ∈ [(Member.field Example.fName, RVal.bytes [0x61#8])] := hp
      rw [List.mem_singleton.mp hp]
      exact ⟨⟨_, rfl, Example.utf8_a⟩, fun _ => trivial⟩
  exact ⟨h, C112_linear_partial (flatCtx T) (flat_resolved T) AnyValue [0] (flat_flat T [0]) 2 _ h⟩

end QP.Gen
