import Verif.Proofs.EqualityLaws
import Verif.Props.Owned
import Verif.Props.Example
set_option linter.unusedVariables false
/-!
# C110: `==` on messages, and what decoding gives back
-/

namespace QP.Gen
open QP.Pbrs Spec

/-- **C110**, what `==` says: two values of a message are `==` exactly if they are equal field by field (Spec/Equality.lean). -/
theorem C110_meaning (C : Ctx) (hK : ScalarKeys C) (n : Nat) (idx : MessageIndex) (v w : RVal) (hv : WellTyped C AnyValue n idx v)
    (hw : WellTyped C AnyValue n idx w) : eqMsg C n idx v w = true ↔ Equal C n idx v w :=
  eqMsg_iff C hK n idx v w hv hw

/-- **C110**, the laws of `PartialEq`: `==` is symmetric and transitive. -/
theorem C110_laws (C : Ctx) (hK : ScalarKeys C) (n : Nat) (idx : MessageIndex) (u v w : RVal) (hu : WellTyped C AnyValue n idx u)
    (hv : WellTyped C AnyValue n idx v) (hw : WellTyped C AnyValue n idx w) :
    (eqMsg C n idx u v = eqMsg C n idx v u) ∧
    (eqMsg C n idx u v = true → eqMsg C n idx v w = true → eqMsg C n idx u w = true) := by
  constructor
  · rw [Bool.eq_iff_iff, eqMsg_iff C hK n idx u v hu hv, eqMsg_iff C hK n idx v u hv hu]
    exact ⟨Equal.symm C n idx u v, Equal.symm C n idx v u⟩
  · rw [eqMsg_iff C hK n idx u v hu hv, eqMsg_iff C hK n idx v w hv hw, eqMsg_iff C hK n idx u w hu hw]
    exact Equal.trans C n idx u v w

/-- **C110**, reflexivity: a message equals itself (its clone) exactly if there is no NaN in it, at any depth. -/
theorem C110_self (C : Ctx) (hK : ScalarKeys C) (n : Nat) (idx : MessageIndex) (v : RVal) (hv : WellTyped C AnyValue n idx v) :
    eqMsg C n idx v v = true ↔ NanFree C n idx v :=
  (eqMsg_iff C hK n idx v v hv hv).trans (Equal.self_iff C hK n idx v hv)

/-- **C110**, the round trip: what is read back cannot be told from the original by `==`, on either side; if the original has no NaN in it,
the two are equal. -/
theorem C110_roundtrip (C : Ctx) (hT : C.T.bigEndian = false) (hS : SchemaOk C) (hD : IsDefault C) (hF : NoDefaults C) (hK : ScalarKeys C)
    (n : Nat) (idx : MessageIndex) (v : RVal) (hv : WellTyped C AnyValue n idx v) (hsz : (writeImpl C n idx).get_size v < 2 ^ 32) :
    ∃ enc, Emits ((writeImpl C n idx).write_message v) enc ∧
      ∀ fuel, enc.length < fuel →
        ∃ v', ReadsAll C.T (fromReader C fuel idx) enc v' ∧
          (∀ w, eqMsg C n idx v' w = eqMsg C n idx v w) ∧
          (∀ w, WellTyped C AnyValue n idx w → eqMsg C n idx w v' = eqMsg C n idx w v) ∧
          (eqMsg C n idx v' v' = eqMsg C n idx v v) ∧
          (NanFree C n idx v → eqMsg C n idx v' v = true ∧ eqMsg C n idx v v' = true) := by
  obtain ⟨enc, h1, h2⟩ := C33_roundtrip_any C hT hS hD hF n idx v hv hsz
  refine ⟨enc, h1, fun fuel hf => ?_⟩
  obtain ⟨v', ho, hr⟩ := h2 fuel hf
  have hu : WellTyped C AnyValue n idx (unsign C n idx v) :=
    WellTyped.imp (Q' := AnyValue) (fun f v _ _ _ => trivial) n idx _ (unsign_typed hF n idx v hv)
  have hl : ∀ w, eqMsg C n idx v' w = eqMsg C n idx v w := fun w =>
    (eqMsg_congr C n idx ho rfl).trans (eqMsg_unsign C n idx v w hv)
  have hrt : ∀ w, WellTyped C AnyValue n idx w → eqMsg C n idx w v' = eqMsg C n idx w v := fun w hw => by
    rw [eqMsg_congr C n idx (rfl : w.obs = w.obs) ho, (C110_laws C hK n idx w (unsign C n idx v) v hw hu hv).1, eqMsg_unsign C n idx v w hv,
      (C110_laws C hK n idx v w v hv hw hv).1]
  have hself : eqMsg C n idx v' v' = eqMsg C n idx v v := by
    rw [hl, hrt v hv]
  exact ⟨v', hr, hl, hrt, hself, fun hn => ⟨by rw [hl]; exact (C110_self C hK n idx v hv).mpr hn,
    by rw [hrt v hv]; exact (C110_self C hK n idx v hv).mpr hn⟩⟩

/-- **C110**: messages written as the same bytes cannot be told apart by `==`. -/
theorem C110_same_bytes (C : Ctx) (hT : C.T.bigEndian = false) (hS : SchemaOk C) (hD : IsDefault C) (hF : NoDefaults C) (hK : ScalarKeys C)
    (hU : 32 ≤ C.T.usizeBits) (n : Nat) (idx : MessageIndex) (v w : RVal) (hv : WellTyped C AnyValue n idx v) (hw : WellTyped C AnyValue n idx w)
    (hsv : (writeImpl C n idx).get_size v < 2 ^ 32) (hsw : (writeImpl C n idx).get_size w < 2 ^ 32) (enc : Bytes)
    (he : Emits ((writeImpl C n idx).write_message v) enc) (he' : Emits ((writeImpl C n idx).write_message w) enc) :
    (∀ u, eqMsg C n idx v u = eqMsg C n idx w u) ∧ (NanFree C n idx v → eqMsg C n idx v w = true) := by
  have hx := exactWrite C hT hS n idx v hv (by omega)
  have hlen : enc.length < 2 ^ C.T.usizeBits := by
    rw [Emits.unique he hx.1, ← hx.2.1]
    exact Nat.lt_of_lt_of_le hsv (Nat.pow_le_pow_right (by omega) hU)
  obtain ⟨e₁, h1, h2⟩ := C110_roundtrip C hT hS hD hF hK n idx v hv hsv
  obtain ⟨e₂, g1, g2⟩ := C110_roundtrip C hT hS hD hF hK n idx w hw hsw
  cases Emits.unique he h1
  cases Emits.unique he' g1
  obtain ⟨v', hr, h3, h4, -, h5⟩ := h2 _ (Nat.lt_succ_self _)
  obtain ⟨w', gr, g3, g4, -, g5⟩ := g2 _ (Nat.lt_succ_self _)
  have e1 := hr [] [] (by simpa using hlen)
  have e2 := gr [] [] (by simpa using hlen)
  rw [e1] at e2
  cases e2
  have key : ∀ u, eqMsg C n idx v u = eqMsg C n idx w u := fun u => (h3 u).symm.trans (g3 u)
  refine ⟨key, fun hn => ?_⟩
  rw [(C110_laws C hK n idx v w v hv hw hv).1, ← key]
  exact (C110_self C hK n idx v hv).mpr hn

theorem eqSeq_listEq {α : Type} (eq : α → α → Bool) : ∀ l l' : List α, eqSeq eq l l' = listEq eq l l'
  | [], [] => rfl
  | [], _ :: _ => rfl
  | _ :: _, [] => rfl
  | a :: l, b :: l' => by rw [eqSeq, listEq, eqSeq_listEq eq l l']

/-- **C110**, `PackedFixed`: the iterators of the two sides, advanced in lock step (reader.rs 959-963), compare the numbers. -/
theorem C110_packed (T : Target) (hT : T.bigEndian = false) :
    (∀ (p q : PackedFixed (BitVec (8 * 4))), PfOk p → PfOk q → (pfElems p).length * 4 < 2 ^ T.usizeBits →
      (pfElems q).length * 4 < 2 ^ T.usizeBits → ∀ fuel, (pfElems p).length < fuel →
        PackedFixed.eqLoop (MemTy.f32 T) T p q fuel 0 0 = .ok (eqSeq f32Eq (pfElems p) (pfElems q)) ∧
        PackedFixed.eqLoop (MemTy.int T 4) T p q fuel 0 0 = .ok (eqSeq (fun x y => x == y) (pfElems p) (pfElems q))) ∧
    (∀ (p q : PackedFixed (BitVec (8 * 8))), PfOk p → PfOk q → (pfElems p).length * 8 < 2 ^ T.usizeBits →
      (pfElems q).length * 8 < 2 ^ T.usizeBits → ∀ fuel, (pfElems p).length < fuel →
        PackedFixed.eqLoop (MemTy.f64 T) T p q fuel 0 0 = .ok (eqSeq f64Eq (pfElems p) (pfElems q)) ∧
        PackedFixed.eqLoop (MemTy.int T 8) T p q fuel 0 0 = .ok (eqSeq (fun x y => x == y) (pfElems p) (pfElems q))) := by
  have hF := C29_faithful_numbers T
  constructor
  · intro p q hp hq h1 h2 fuel hf
    have dp := pfElems_denotes hT (by omega) p hp
    have dq := pfElems_denotes hT (by omega) q hq
    simp only [eqSeq_listEq]
    exact ⟨(C29_packedFixed_is_list T _ hF.2.1 p _ dp h1).2.2.2.2.2.2.2.2.2 q _ dq h2 fuel hf,
      (C29_packedFixed_is_list T _ (hF.1 4 (by omega)) p _ dp h1).2.2.2.2.2.2.2.2.2 q _ dq h2 fuel hf⟩
  · intro p q hp hq h1 h2 fuel hf
    have dp := pfElems_denotes hT (by omega) p hp
    have dq := pfElems_denotes hT (by omega) q hq
    simp only [eqSeq_listEq]
    exact ⟨(C29_packedFixed_is_list T _ hF.2.2 p _ dp h1).2.2.2.2.2.2.2.2.2 q _ dq h2 fuel hf,
      (C29_packedFixed_is_list T _ (hF.1 8 (by omega)) p _ dp h1).2.2.2.2.2.2.2.2.2 q _ dq h2 fuel hf⟩

/-! ## The example -/

namespace Example

theorem scalarKeys (T : Target) : ScalarKeys (ctx T) := by
  intro idx m h f hf k t ht i hk
  obtain ⟨rfl, rfl⟩ := get_node T idx m h
  rw [node_members] at hf
  simp only [List.mem_cons, List.not_mem_nil, or_false, Member.field.injEq, reduceCtorEq] at hf
  rcases hf with rfl | rfl | rfl | rfl | rfl | rfl | rfl | rfl | rfl <;> (cases ht; try cases hk)

/-- The value of the example with the entries of its map in another order and an owned list of numbers. -/
def shuffled : RVal :=
  .struct [.w32 (-1), .bytes [0x61#8], .vec [.w64 (-5), .w64 3], .pf32 (.owned [0x04030201#32]),
    .vec [.bytes [0x62#8], .bytes []], .map [(.bytes [], .w32 0), (.bytes [0x6b#8], .w32 7)], .some leaf,
    .w32 0xc0490fdb#32, .w32 0, .choice 1 (.bytes [0xff#8])]

/-- With a NaN. -/
def nan : RVal :=
  .struct [.w32 0, .bytes [], .vec [], .pf32 .noDataYet, .vec [], .map [], .none, .w32 0x7fc00000#32, .w32 0, .none]

theorem nan_typed (T : Target) (n : Nat) : WellTyped (ctx T) AnyValue (n + 1) [0] nan := by
  refine wellTyped_of ?_ ?_ ?_ ?_ ?_ ?_ ?_ ?_ ?_ ?_
  · exact ⟨⟨_, rfl⟩, fun _ => trivial⟩
  · exact ⟨⟨_, rfl, utf8_nil⟩, fun _ => trivial⟩
  · exact ⟨[], rfl, by simp⟩
  · exact ⟨_, rfl, by intro b h; cases h⟩
  · exact ⟨[], rfl, by simp⟩
  · exact ⟨_, _, [], rfl, rfl, by simp, by simp⟩
  · exact Or.inl rfl
  · exact ⟨⟨_, rfl⟩, fun _ => trivial⟩
  · exact ⟨⟨_, rfl, (by decide : (0 : BitVec 32) ∈ [0#32, 5#32])⟩, fun _ => trivial⟩
  · exact Or.inl rfl

/-- Equal, different, and a message with a NaN, which differs from itself. -/
theorem C110_example (T : Target) :
    eqMsg (ctx T) 2 [0] value shuffled = true ∧ eqMsg (ctx T) 2 [0] value leaf = false ∧ eqMsg (ctx T) 2 [0] nan nan = false :=
  ⟨rfl, rfl, rfl⟩

/-- The round trip of the value of the example. -/
theorem C110_example_roundtrip : ∃ enc, Emits ((writeImpl (ctx Target.release64) 2 [0]).write_message value) enc ∧
    ∃ v', ReadsAll Target.release64 (fromReader (ctx Target.release64) (enc.length + 1) [0]) enc v' ∧
      eqMsg (ctx Target.release64) 2 [0] v' value = true := by
  obtain ⟨enc, h1, h2⟩ := C110_roundtrip (ctx Target.release64) rfl (schemaOk _) (isDefault _) (noDefaults _) (scalarKeys _) 2 [0] value
    (WellTyped.imp (Q' := AnyValue) (fun f v _ _ _ => trivial) 2 [0] _ (value_typed _ 0)) (by decide +kernel)
  obtain ⟨v', h3, h4, -⟩ := h2 _ (Nat.lt_succ_self _)
  exact ⟨enc, h1, v', h3, (h4 _).trans rfl⟩

/-- So with a NaN the message read back is not equal to the one written: "equal" needs the condition. -/
theorem C110_nan_refuted (T : Target) : ∃ v, WellTyped (ctx T) AnyValue 1 [0] v ∧ eqMsg (ctx T) 1 [0] v v = false :=
  ⟨nan, nan_typed T 0, rfl⟩

end Example

end QP.Gen
