import Verif.Proofs.OwnedMemory
import Verif.Props.Slices
/-!
# C102: owned wrappers are memory safe
-/

set_option linter.unusedVariables false

namespace QP.Gen
open QP.Pbrs

/-- **C102, partial.** For every program that never stores, through `proto_mut`, data that borrows from a local variable or from another wrapper:
reading a wrapper is never undefined behaviour, and gives the buffer and the strings that plain values would have, whatever is moved, dropped, mutated
or allocated in between (allocations may be reused). What is missing is false: `C102_refuted_local`, `C102_refuted_swap`. -/
theorem C102_safe_partial (C : Ctx) (ops : List Op) (h : ∀ op ∈ ops, op.Tame) : SafeFor C ops := by
  intro W hr w
  have hi := inv_run hr h
  unfold World.buf World.proto
  cases hw : W.owned w with
  | none => rw [hi.none w hw]; exact ⟨rfl, rfl⟩
  | some c =>
    obtain ⟨p, hp, hf⟩ := hi.some w c hw
    rw [hp]
    simp only [Option.map_some, hf.buf, hf.read, and_self]

theorem borrows_exist {a : Nat} {b : Bytes} {C : Ctx} : ∀ ss : List Bytes, (∀ s ∈ ss, s <:+: b ∨ Constant C s) →
    ∃ ls, readLeaves (fun i => if i = a then Option.some b else Option.none) ls = .ok ss ∧ (∀ l ∈ ls, (∃ off len, l = .slice a off len) ∨ ∃ x, l = .static x) ∧
      ((∃ s ∈ ss, ¬ Constant C s) → ∃ off len, Leaf.slice a off len ∈ ls)
  | [], _ => ⟨[], rfl, by simp, by simp⟩
  | s :: ss, h => by
    obtain ⟨ls, h1, h2, h3⟩ := borrows_exist ss (fun s hs => h s (List.mem_cons_of_mem _ hs))
    by_cases hc : Constant C s
    · refine ⟨.static s :: ls, readLeaves_cons.mpr ⟨_, _, rfl, rfl, h1⟩, ?_, ?_⟩
      · intro l hl
        rcases List.mem_cons.mp hl with rfl | hl
        · exact Or.inr ⟨s, rfl⟩
        · exact h2 l hl
      · rintro ⟨t, ht, hn⟩
        rcases List.mem_cons.mp ht with rfl | ht
        · exact (hn hc).elim
        · obtain ⟨o, n, hm⟩ := h3 ⟨t, ht, hn⟩
          exact ⟨o, n, List.mem_cons_of_mem _ hm⟩
    · obtain ⟨p, q, he⟩ := (h s (List.mem_cons_self ..)).resolve_right hc
      refine ⟨.slice a p.length s.length :: ls, readLeaves_cons.mpr ⟨_, _, rfl, ?_, h1⟩, ?_, fun _ => ⟨_, _, List.mem_cons_self ..⟩⟩
      · have hlen : b.length = p.length + s.length + q.length := by rw [← he]; simp only [List.length_append]
        have : getRange b p.length (p.length + s.length) = Option.some s := by
          unfold getRange
          rw [if_pos ⟨by omega, by omega⟩, ← he]
          simp
        simp only [Leaf.read, if_true, this]
      · intro l hl
        rcases List.mem_cons.mp hl with rfl | hl
        · exact Or.inl ⟨_, _, rfl⟩
        · exact h2 l hl

/-- `try_from` of an input that decodes does run: by C101 the decoded strings are parts of the buffer or defaults. -/
theorem C102_try_from (C : Ctx) (hD : IsDefault C) (hU : NoGhosts C) (W : World) (w a : Nat) (idx : MessageIndex) (b : Bytes) (v : RVal)
    (ha : W.vecs a = true) (hb : W.heap a = Option.some b) (hw : W.owned w = Option.none) (hd : tryFromSlice C (b.length + 1) idx b = .ok v) :
    ∃ W', Step C W (.tryFrom w a idx) W' ∧ W'.owned w ≠ Option.none := by
  have hz : ∀ s ∈ v.slices, s <:+: b ∨ Constant C s :=
    C101_zero_copy C hD hU (b.length + 1) idx b (BytesReader.from_bytes b) _ v (Prod.ext hd rfl)
  obtain ⟨ls, h1, h2, _⟩ := borrows_exist (a := a) v.slices hz
  exact ⟨_, ⟨ha, hw, b, hb, Or.inl ⟨v, ls, hd, ⟨h1, h2⟩, rfl⟩⟩, by simp [put_same]⟩

/-- Safe code can make a wrapper outlive what it borrows, for every schema: `w.proto_mut().name = Cow::Borrowed(&local); drop(local); w.proto()` is
undefined behaviour. -/
theorem C102_refuted_local (C : Ctx) : ∃ ops W, Run C ops W ∧ W.proto 0 = Option.some .ub ∧ ¬ SafeFor C ops := by
  let ops : List Op := [.fromProto 0 0 [.static []], .vec 1 [0x61#8], .protoMut 0 [.borrow 1 0 1], .dropVec 1]
  suffices h : ∃ W, Run C ops W ∧ W.proto 0 = Option.some .ub by
    obtain ⟨W, h1, h2⟩ := h
    refine ⟨ops, W, h1, h2, fun hs => ?_⟩
    have := (hs W h1 0).2
    rw [h2] at this
    cases hv : (expected C ops).owned 0 with
    | none => rw [hv] at this; cases this
    | some p => rw [hv] at this; cases this
  let o0 := put World.start.owned 0 (Option.some ⟨0, [.static []]⟩)
  let h0 := put World.start.heap 0 (Option.some [])
  let h1 := put h0 1 (Option.some [0x61#8])
  let w1 : World := ⟨h0, World.start.vecs, o0⟩
  let w2 : World := ⟨h1, put World.start.vecs 1 true, o0⟩
  let w3 : World := ⟨h1, put World.start.vecs 1 true, put o0 0 (Option.some ⟨0, [.slice 1 0 1]⟩)⟩
  let w4 : World := ⟨put h1 1 Option.none, put (put World.start.vecs 1 true) 1 false, put o0 0 (Option.some ⟨0, [.slice 1 0 1]⟩)⟩
  have s1 : Run C [.fromProto 0 0 [.static []]] w1 := Run.step (ops := []) Run.start ⟨rfl, rfl, [.static []], ⟨_, _, rfl, rfl, rfl⟩, by simp, rfl⟩
  have s2 : Run C [.fromProto 0 0 [.static []], .vec 1 [0x61#8]] w2 := Run.step (ops := [_]) s1 ⟨rfl, rfl⟩
  have s3 : Run C [.fromProto 0 0 [.static []], .vec 1 [0x61#8], .protoMut 0 [.borrow 1 0 1]] w3 :=
    Run.step (ops := [_, _]) s2 ⟨⟨0, [.static []]⟩, [.slice 1 0 1], rfl, ⟨_, _, rfl, ⟨rfl, rfl, [0x61#8], [0x61#8], rfl, rfl⟩, rfl⟩, rfl⟩
  have s4 : Run C ops w4 := Run.step (ops := [_, _, _]) s3 ⟨rfl, rfl⟩
  exact ⟨w4, s4, rfl⟩

theorem readLeaves_ub {h : Nat → Option Bytes} {a : Nat} (ha : h a = Option.none) : ∀ {ls : List Leaf}, (∀ l ∈ ls, (∃ off len, l = .slice a off len) ∨ ∃ x, l = .static x) →
    (∃ off len, Leaf.slice a off len ∈ ls) → readLeaves h ls = .ub
  | [], _, ⟨_, _, hm⟩ => by cases hm
  | l :: ls, hl, hm => by
    rcases hl l (List.mem_cons_self ..) with ⟨off, len, rfl⟩ | ⟨x, rfl⟩
    · simp [readLeaves, Leaf.read, ha]
    · have : ∃ off len, Leaf.slice a off len ∈ ls := by
        obtain ⟨o, n, hm⟩ := hm
        rcases List.mem_cons.mp hm with he | hm
        · cases he
        · exact ⟨o, n, hm⟩
      simp only [readLeaves, Leaf.read, readLeaves_ub ha (fun l h => hl l (List.mem_cons_of_mem _ h)) this]

/-- Safe code can exchange the messages of two wrappers, `mem::swap(w0.proto_mut(), w1.proto_mut())`, for every message type and every input that
decodes to a message with a string from the input; after `drop(w0)` the message of `w1` points into a freed buffer. -/
theorem C102_refuted_swap (C : Ctx) (hD : IsDefault C) (hU : NoGhosts C) (idx : MessageIndex) (b : Bytes) (v : RVal)
    (hd : tryFromSlice C (b.length + 1) idx b = .ok v) (hs : ∃ s ∈ v.slices, ¬ Constant C s) :
    ∃ W, Run C [.vec 0 b, .tryFrom 0 0 idx, .fromProto 1 1 [], .swap 0 1, .drop 0] W ∧ W.proto 1 = Option.some .ub := by
  have hz : ∀ s ∈ v.slices, s <:+: b ∨ Constant C s :=
    C101_zero_copy C hD hU (b.length + 1) idx b (BytesReader.from_bytes b) _ v (Prod.ext hd rfl)
  obtain ⟨ls, h1, h2, h3⟩ := borrows_exist (a := 0) v.slices hz
  let h0 := put World.start.heap 0 (Option.some b)
  let o0 := put World.start.owned 0 (Option.some ⟨0, ls⟩)
  let o1 := put o0 1 (Option.some ⟨1, []⟩)
  let o2 := put (put o1 0 (Option.some ⟨0, []⟩)) 1 (Option.some ⟨1, ls⟩)
  let w1 : World := ⟨h0, put World.start.vecs 0 true, World.start.owned⟩
  let w2 : World := ⟨h0, put (put World.start.vecs 0 true) 0 false, o0⟩
  let w3 : World := ⟨put h0 1 (Option.some []), put (put World.start.vecs 0 true) 0 false, o1⟩
  let w4 : World := ⟨put h0 1 (Option.some []), put (put World.start.vecs 0 true) 0 false, o2⟩
  let w5 : World := ⟨put (put h0 1 (Option.some [])) 0 Option.none, put (put World.start.vecs 0 true) 0 false, put o2 0 Option.none⟩
  have s1 : Run C [.vec 0 b] w1 := Run.step (ops := []) Run.start ⟨rfl, rfl⟩
  have s2 : Run C [.vec 0 b, .tryFrom 0 0 idx] w2 := Run.step (ops := [_]) s1 ⟨rfl, rfl, b, rfl, Or.inl ⟨v, ls, hd, ⟨h1, h2⟩, rfl⟩⟩
  have s3 : Run C [.vec 0 b, .tryFrom 0 0 idx, .fromProto 1 1 []] w3 := Run.step (ops := [_, _]) s2 ⟨rfl, rfl, [], rfl, by simp, rfl⟩
  have s4 : Run C [.vec 0 b, .tryFrom 0 0 idx, .fromProto 1 1 [], .swap 0 1] w4 := Run.step (ops := [_, _, _]) s3 ⟨_, _, by decide, rfl, rfl, rfl⟩
  have s5 : Run C [.vec 0 b, .tryFrom 0 0 idx, .fromProto 1 1 [], .swap 0 1, .drop 0] w5 := Run.step (ops := [_, _, _, _]) s4 ⟨_, rfl, rfl⟩
  refine ⟨w5, s5, ?_⟩
  have : w5.proto 1 = Option.some (readLeaves w5.heap ls) := rfl
  rw [this, readLeaves_ub (a := 0) rfl h2 (h3 hs)]

theorem readLeaves_length {h : Nat → Option Bytes} : ∀ {ls : List Leaf} {ps : List Bytes}, readLeaves h ls = .ok ps → ls.length = ps.length
  | [], ps, hr => by cases hr; rfl
  | l :: ls, ps, hr => by
    obtain ⟨x, xs, rfl, _, h2⟩ := readLeaves_cons.mp hr
    rw [List.length_cons, List.length_cons, readLeaves_length h2]

/-! ## An example -/

namespace OwnedExample
open Example SlicesExample

theorem constant_none (s : Bytes) : ¬ Constant (ctx T) s := by
  rintro ⟨idx, m, f, text, hm, hf, hd, hs⟩
  cases hs

/-- `let w0 = FooOwned::try_from(v); *w0.proto_mut() = (its strings backwards, one replaced); let w1 = w0; drop(w2)`: the hypothesis is met, and the
run exists. -/
def program : List Op := [.vec 0 input, .tryFrom 0 0 [0], .fromProto 2 1 [.own [7#8]], .protoMut 0 [.keep 2, .keep 0, .own [9#8]], .move 0 1, .drop 2]

theorem C102_example : (∀ op ∈ program, op.Tame) ∧ (∃ W, Run (ctx T) program W ∧ W.proto 1 = Option.some (.ok [[0x62#8], [0x68#8, 0x69#8], [9#8]])) := by
  have hd : ∃ v, tryFromSlice (ctx T) (input.length + 1) [0] input = .ok v ∧ 3 ≤ v.slices.length ∧ v.slices[0]? = Option.some [0x68#8, 0x69#8] ∧ v.slices[2]? = Option.some [0x62#8] := by
    have h : (match tryFromSlice (ctx T) (input.length + 1) [0] input with
      | .ok v => decide (3 ≤ v.slices.length ∧ v.slices[0]? = Option.some [0x68#8, 0x69#8] ∧ v.slices[2]? = Option.some [0x62#8])
      | _ => false) = true := by decide +kernel
    split at h
    · next v hv => exact ⟨v, hv, of_decide_eq_true h⟩
    · cases h
  obtain ⟨v, hd, hlen, hv0, hv1⟩ := hd
  refine ⟨?_, ?_⟩
  · intro op hop
    simp only [program, List.mem_cons, List.not_mem_nil, or_false] at hop
    rcases hop with rfl | rfl | rfl | rfl | rfl | rfl <;> try trivial
    intro s hs
    simp only [List.mem_cons, List.not_mem_nil, or_false] at hs
    rcases hs with rfl | rfl | rfl <;> trivial
  · have hz : ∀ s ∈ v.slices, s <:+: input ∨ Constant (ctx T) s :=
      C101_zero_copy _ (isDefault T) noGhosts (input.length + 1) [0] input (BytesReader.from_bytes input) _ v (Prod.ext hd rfl)
    obtain ⟨ls, h1, h2, _⟩ := borrows_exist (a := 0) v.slices hz
    have hll : ls.length = v.slices.length := readLeaves_length h1
    have g0 : ∃ l, ls[0]? = Option.some l := ⟨ls[0], List.getElem?_eq_getElem (by omega)⟩
    have g2 : ∃ l, ls[2]? = Option.some l := ⟨ls[2], List.getElem?_eq_getElem (by omega)⟩
    obtain ⟨l0, g0⟩ := g0
    obtain ⟨l2, g2⟩ := g2
    let h0 := put World.start.heap 0 (Option.some input)
    let hh := put h0 1 (Option.some [])
    let vs := put (put World.start.vecs 0 true) 0 false
    let o0 := put World.start.owned 0 (Option.some ⟨0, ls⟩)
    let o1 := put o0 2 (Option.some ⟨1, [.own [7#8]]⟩)
    let o2 := put o1 0 (Option.some ⟨0, [l2, l0, .own [9#8]]⟩)
    let o3 := put (put o2 0 Option.none) 1 (Option.some ⟨0, [l2, l0, .own [9#8]]⟩)
    let w1 : World := ⟨h0, put World.start.vecs 0 true, World.start.owned⟩
    let w2 : World := ⟨h0, vs, o0⟩
    let w3 : World := ⟨hh, vs, o1⟩
    let w4 : World := ⟨hh, vs, o2⟩
    let w5 : World := ⟨hh, vs, o3⟩
    let w6 : World := ⟨put hh 1 Option.none, vs, put o3 2 Option.none⟩
    have s1 : Run (ctx T) [.vec 0 input] w1 := Run.step (ops := []) Run.start ⟨rfl, rfl⟩
    have s2 : Run (ctx T) [.vec 0 input, .tryFrom 0 0 [0]] w2 := Run.step (ops := [_]) s1 ⟨rfl, rfl, input, rfl, Or.inl ⟨v, ls, hd, ⟨h1, h2⟩, rfl⟩⟩
    have s3 : Run (ctx T) [.vec 0 input, .tryFrom 0 0 [0], .fromProto 2 1 [.own [7#8]]] w3 :=
      Run.step (ops := [_, _]) s2 ⟨rfl, rfl, [.own [7#8]], ⟨_, _, rfl, rfl, rfl⟩, by simp, rfl⟩
    have s4 : Run (ctx T) [.vec 0 input, .tryFrom 0 0 [0], .fromProto 2 1 [.own [7#8]], .protoMut 0 [.keep 2, .keep 0, .own [9#8]]] w4 :=
      Run.step (ops := [_, _, _]) s3 ⟨⟨0, ls⟩, [l2, l0, .own [9#8]], rfl, ⟨_, _, rfl, g2, ⟨_, _, rfl, g0, ⟨_, _, rfl, rfl, rfl⟩⟩⟩, rfl⟩
    have s5 : Run (ctx T) [.vec 0 input, .tryFrom 0 0 [0], .fromProto 2 1 [.own [7#8]], .protoMut 0 [.keep 2, .keep 0, .own [9#8]], .move 0 1] w5 :=
      Run.step (ops := [_, _, _, _]) s4 ⟨_, by decide, rfl, rfl, rfl⟩
    have s6 : Run (ctx T) program w6 := Run.step (ops := [_, _, _, _, _]) s5 ⟨⟨1, [.own [7#8]]⟩, rfl, rfl⟩
    refine ⟨w6, s6, ?_⟩
    have e0 := readLeaves_get h1 g0
    have e2 := readLeaves_get h1 g2
    have hv0' : v.slices.getD 0 [] = [0x68#8, 0x69#8] := by rw [List.getD_eq_getElem?_getD, hv0]; rfl
    have hv2' : v.slices.getD 2 [] = [0x62#8] := by rw [List.getD_eq_getElem?_getD, hv1]; rfl
    rw [hv0'] at e0
    rw [hv2'] at e2
    have hw : w6.proto 1 = Option.some (readLeaves w6.heap [l2, l0, .own [9#8]]) := rfl
    have hin : ∀ i l, ls[i]? = Option.some l → ∀ j off len, l = Leaf.slice j off len → j = 0 := fun i l hi j off len he => by
      rcases h2 l (List.mem_of_getElem? hi) with ⟨o, n, h⟩ | ⟨x, h⟩ <;> rw [h] at he <;> cases he
      rfl
    have hc : w6.heap 0 = (fun i => if i = 0 then Option.some input else Option.none) 0 := by
      simp [w6, hh, h0, put]
    have r0 : l0.read w6.heap = .ok [0x68#8, 0x69#8] := (Leaf.read_congr hc (hin 0 l0 g0)).trans e0
    have r2 : l2.read w6.heap = .ok [0x62#8] := (Leaf.read_congr hc (hin 2 l2 g2)).trans e2
    have r : readLeaves w6.heap [l2, l0, .own [9#8]] = .ok [[0x62#8], [0x68#8, 0x69#8], [9#8]] := by
      exact readLeaves_cons.mpr ⟨_, _, rfl, r2, readLeaves_cons.mpr ⟨_, _, rfl, r0, readLeaves_cons.mpr ⟨_, _, rfl, rfl, rfl⟩⟩⟩
    rw [hw, r]

end OwnedExample

end QP.Gen
