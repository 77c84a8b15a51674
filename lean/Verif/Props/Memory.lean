import Verif.Proofs.Weight
import Verif.Proofs.Resolve
import Verif.Props.Profiles
import Verif.Props.Owned
import Verif.Props.Safety
/-!
# C91: how much memory decoding takes
-/

set_option linter.unusedVariables false

namespace QP.Gen
open QP.Pbrs Spec BytesReader

/-- The messages of a schema are finitely many, so their defaults are bounded. -/
theorem dflt_bound (C : Ctx) : ∃ W, 1 ≤ W ∧ ∀ idx m, C.D.getMessage idx = Option.some m → (C.dflt idx).weight ≤ W := by
  have key : ∀ l : List (MessageIndex × Message), ∃ W, 1 ≤ W ∧ ∀ p ∈ l, (C.dflt p.1).weight ≤ W := by
    intro l
    induction l with
    | nil => exact ⟨1, Nat.le_refl _, fun p hp => by cases hp⟩
    | cons p l ih =>
      obtain ⟨W, h1, h2⟩ := ih
      refine ⟨W + (C.dflt p.1).weight, by omega, fun q hq => ?_⟩
      rcases List.mem_cons.mp hq with rfl | hq
      · omega
      · have := h2 q hq; omega
  obtain ⟨W, h1, h2⟩ := key (Message.preorderAll [] 0 C.D.messages)
  exact ⟨W, h1, fun idx m hm => h2 (idx, m) ((mem_preorder_file C.D idx m).mpr hm)⟩

/-- **C91**, with overflow checks: for every schema there is a number `K` such that decoding any `n` bytes, as any message of the schema,
gives a value of at most `K * (n + 1)` parts. No input can make the decoder build more: not by nesting, not by lengths that lie, not
by reading bytes twice. -/
theorem C91_linear_partial (C : Ctx) (hT : C.T.overflowChecks = true) (hC : Resolved C) : ∃ K, ∀ idx b fuel v, Roomy C.T b →
    ((fromReader C fuel idx b (from_bytes b)).1 = .ok v → v.weight ≤ K * (b.length + 1)) ∧
    (deserialize_from_slice C.T (fromReader C fuel idx) b = .ok v → v.weight ≤ K * (b.length + 1)) := by
  obtain ⟨W, hW, hd⟩ := dflt_bound C
  have hpay := pays_fromReader (K := 2 * W + 1) hT hW hC hd (Nat.le_refl _)
  have fin : ∀ (b : Bytes) (r' : BytesReader) (v : RVal), 0 + v.weight + (2 * W + 1) * behind b (from_bytes b) ≤ 0 + W + (2 * W + 1) * behind b r' →
      v.weight ≤ (2 * W + 1) * (b.length + 1) := by
    intro b r' v h
    have : behind b r' ≤ b.length := by unfold behind; omega
    have := Nat.mul_le_mul_left (2 * W + 1) this
    rw [Nat.mul_add]
    omega
  have hin : ∀ b, InRange b (from_bytes b) := fun b => ⟨by simp [from_bytes], by simp [from_bytes]⟩
  refine ⟨2 * W + 1, fun idx b fuel v hR => ⟨fun h => ?_, fun h => ?_⟩⟩
  · rcases hx : fromReader C fuel idx b (from_bytes b) with ⟨o, r'⟩
    rw [hx] at h
    simp only at h
    subst h
    exact fin b r' v (hpay fuel idx 0 b _ v r' hR (hin b) (by simp [from_bytes]) hx).2
  · unfold deserialize_from_slice at h
    rcases hx : BytesReader.read_message C.T b (fromReader C fuel idx b) (from_bytes b) with ⟨o, r'⟩
    rw [hx] at h
    simp only at h
    subst h
    refine fin b r' v ?_
    have := Pays.read_len_varint (T := C.T) (K := 2 * W + 1) (c := 0) ((hpay fuel idx 0).mono (c' := 0 + (2 * W + 1)) (by omega) (fun _ => Nat.le_refl _))
      b _ v r' hR (hin b) hx
    omega

/-- Without overflow checks it holds for all inputs on which a checked build does not panic – in particular (C22) for all messages
without nested messages, and all inputs whose nested messages are complete. -/
theorem C91_release_partial (C : Ctx) (hT : C.T.overflowChecks = true) (hC : Resolved C) : ∃ K, ∀ idx b fuel v, Roomy C.T b →
    (fromReader C fuel idx b (from_bytes b)).1 ≠ .panic → (fromReader C.unchecked fuel idx b (from_bytes b)).1 = .ok v → v.weight ≤ K * (b.length + 1) := by
  obtain ⟨K, hK⟩ := C91_linear_partial C hT hC
  refine ⟨K, fun idx b fuel v hR hp h => (hK idx b fuel v hR).1 ?_⟩
  rw [← (C83_decode C idx fuel b).1 _ hp]
  exact h

/-- `n` iterations of a loop `while !r.is_eof() { … }`; `timeout` if it ends before. -/
def iterations {A : Type} (step : A → RM A) : Nat → A → RM A
  | 0, acc => pure acc
  | n + 1, acc => do
    let r ← SM.get
    if r.is_eof then SM.lift .timeout
    else do
      let acc ← step acc
      iterations step n acc

/-- Like `loopBytes`, with the tag of the repeated field 5. -/
def growBytes : Bytes := [0x3a#8, 1#8, 0x2a#8, 0#8, 0x62#8, 0xf3#8, 0xff#8, 0xff#8, 0xff#8, 0xff#8, 0xff#8,
  0xff#8, 0xff#8, 0xff#8, 1#8]

/-- Without overflow checks, fifteen bytes make the decoder of the example schema eat up the memory: the loop that reads the nested
message (which is at bytes 2 to 3) can be run any number of times, and has then pushed as many strings to the field `tags`. -/
theorem C91_refuted (N : Nat) : ∃ slots r,
    iterations (msgStep (Example.ctx Target.release64) (fromReader (Example.ctx Target.release64) 20) 20 (arms {} Example.node) growBytes)
      (2 * N) Example.nodeDefault.slots ⟨2, 3⟩ = (.ok slots, r) ∧
    r.is_eof = false ∧ slots[4]? = Option.some (.vec (List.replicate N (.bytes []))) := by
  have step1 : ∀ a b c d l e, msgStep (Example.ctx Target.release64) (fromReader (Example.ctx Target.release64) 20) 20
      (arms {} Example.node) growBytes (a :: b :: c :: d :: .vec l :: e) ⟨2, 3⟩
      = (.ok (a :: b :: c :: d :: .vec (l ++ [.bytes []]) :: e), ⟨4, 3⟩) := fun a b c d l e => rfl
  have step2 : ∀ s, msgStep (Example.ctx Target.release64) (fromReader (Example.ctx Target.release64) 20) 20
      (arms {} Example.node) growBytes s ⟨4, 3⟩ = (.ok s, ⟨2, 3⟩) := fun s => rfl
  have main : ∀ N a b c d l e, iterations (msgStep (Example.ctx Target.release64) (fromReader (Example.ctx Target.release64) 20) 20
      (arms {} Example.node) growBytes) (2 * N) (a :: b :: c :: d :: .vec l :: e) ⟨2, 3⟩
        = (.ok (a :: b :: c :: d :: .vec (l ++ List.replicate N (.bytes [])) :: e), ⟨2, 3⟩) := by
    intro N
    induction N with
    | zero => intro a b c d l e; simp [iterations, SM.pure_run]
    | succ N ih =>
      intro a b c d l e
      rw [show 2 * (N + 1) = 2 * N + 1 + 1 by omega]
      simp only [iterations, SM.bind_run, SM.get_run, show is_eof ⟨2, 3⟩ = false from rfl, show is_eof ⟨4, 3⟩ = false from rfl,
        Bool.false_eq_true, if_false, step1, step2, ih]
      rw [List.append_assoc, List.replicate_succ]
      rfl
  exact ⟨_, _, main N _ _ _ _ _ _, rfl, by simp⟩

/-- The hypotheses are met. -/
example : ∃ K, ∀ idx b fuel v, Roomy Target.debug64 b → (fromReader (Example.ctx Target.debug64) fuel idx b (from_bytes b)).1 = .ok v →
    v.weight ≤ K * (b.length + 1) := by
  obtain ⟨K, h⟩ := C91_linear_partial (Example.ctx Target.debug64) rfl (Example.resolved _)
  exact ⟨K, fun idx b fuel v hR => (h idx b fuel v hR).1⟩

end QP.Gen
