import Verif.Proofs.Slices
import Verif.Props.Example
/-!
# C101: decoding copies nothing and invents nothing
-/

set_option linter.unusedVariables false

namespace QP.Gen
open QP.Pbrs

/-- **C101.** For every schema, target and build profile, every input and every position of the reader in it: each string, byte string and packed
buffer in a decoded value, at any depth, is a contiguous part of the input (so it can be borrowed from it), or a default of the schema. -/
theorem C101_zero_copy (C : Ctx) (hD : IsDefault C) (hU : NoGhosts C) (fuel : Nat) (idx : MessageIndex) (bytes : Bytes) (r r' : BytesReader) (v : RVal)
    (h : fromReader C fuel idx bytes r = (.ok v, r')) : ∀ s ∈ v.slices, s <:+: bytes ∨ Constant C s := by
  intro s hs
  rcases ens_fromReader fuel idx r v r' h s hs with h1 | rfl | ⟨i, h1⟩
  · exact Or.inl h1
  · exact Or.inl (List.nil_infix)
  · exact (dflt_constant hD hU _ i (Nat.le_refl _) s h1).imp (fun h => by rw [h]; exact List.nil_infix) id

/-- … in particular through `deserialize_from_slice`. -/
theorem C101_slice (C : Ctx) (hD : IsDefault C) (hU : NoGhosts C) (fuel : Nat) (idx : MessageIndex) (bytes : Bytes) (v : RVal)
    (h : deserialize_from_slice C.T (fromReader C fuel idx) bytes = .ok v) : ∀ s ∈ v.slices, s <:+: bytes ∨ Constant C s := by
  intro s hs
  unfold deserialize_from_slice at h
  cases hr : BytesReader.read_message C.T bytes (fromReader C fuel idx bytes) (BytesReader.from_bytes bytes) with
  | mk o r' =>
    rw [hr] at h
    obtain rfl : o = .ok v := h
    have hE : Ens (BytesReader.read_message C.T bytes (fromReader C fuel idx bytes)) (fun v => ∀ s ∈ v.slices, s <:+: bytes ∨ Constant C s) :=
      ens_len_varint (fun r v r' h => C101_zero_copy C hD hU fuel idx bytes r r' v h)
    exact hE _ _ _ hr s hs

/-- … and whatever was read from a `Reader`: the slices are parts of its buffer. -/
theorem C101_reader (C : Ctx) (hD : IsDefault C) (hU : NoGhosts C) (fuel : Nat) (idx : MessageIndex) (r r' : Reader) (v : RVal)
    (h : Reader.read (fromReader C fuel idx) r = (.ok v, r')) : ∀ s ∈ v.slices, s <:+: r.buffer ∨ Constant C s := by
  cases hf : fromReader C fuel idx r.buffer r.inner with
  | mk o i =>
  unfold Reader.read at h
  rw [hf] at h
  cases h
  exact C101_zero_copy C hD hU fuel idx r.buffer r.inner i v hf

/-! ## An example: a name, and in a nested message a name and a map -/

namespace SlicesExample
open Example

def T : Target := { usizeBits := 64, bigEndian := false, overflowChecks := false }

theorem noGhosts : NoGhosts (ctx T) := fun _ _ => by simp [ctx, nodeDefault, RVal.slices, slicesOf, packedSlices, entrySlices]

/-- `name: "hi"`, `child { tags: "b" props { "k": 7 } }`. -/
def input : Bytes :=
  [0x12#8, 2#8, 0x68#8, 0x69#8, 0x3a#8, 10#8, 0x2a#8, 1#8, 0x62#8, 0x32#8, 5#8, 0x0a#8, 1#8, 0x6b#8, 0x10#8, 7#8]

theorem C101_example : ∃ v, (fromReader (ctx T) 20 [0] input (BytesReader.from_bytes input)).1 = .ok v ∧
    [0x68#8, 0x69#8] ∈ v.slices ∧ [0x62#8] ∈ v.slices ∧ [0x6b#8] ∈ v.slices ∧ IsDefault (ctx T) ∧ NoGhosts (ctx T) := by
  have h : (match (fromReader (ctx T) 20 [0] input (BytesReader.from_bytes input)).1 with
    | .ok v => decide ([0x68#8, 0x69#8] ∈ v.slices ∧ [0x62#8] ∈ v.slices ∧ [0x6b#8] ∈ v.slices)
    | _ => false) = true := by decide +kernel
  split at h
  · next v hv =>
    have h := of_decide_eq_true h
    exact ⟨v, hv, h.1, h.2.1, h.2.2, isDefault T, noGhosts⟩
  · cases h

end SlicesExample

end QP.Gen
