import Verif.Proofs.Decode
import Verif.Proofs.Fuel
import Verif.Props.Example
/-!
# What generated decoders accept, and what they make of it
-/

set_option linter.unusedVariables false

namespace QP.Gen
open QP.Pbrs Spec BytesReader

/-- Decode a whole buffer, as a user does:
`M::from_reader(&mut BytesReader::from_bytes(b), b)` (reader.rs 77-82, types.rs 1664-1718). The fuel is
enough by C23. -/
def decode (C : Ctx) (idx : MessageIndex) (b : Bytes) : Out RVal :=
  (fromReader C (b.length + 1) idx b (from_bytes b)).1

/-! ## The declarative decoder does not depend on the depth bound -/

section
variable {C : Ctx} {sub sub' : MessageIndex → Bytes → RVal → Prop}

theorem DecTyp.imp {t : FieldType} {p : Bytes} {x : RVal}
    (hi : ∀ m body v, body.length < p.length → sub m body v → sub' m body v) (h : DecTyp C sub t p x) :
    DecTyp C sub' t p x := by
  cases t <;> first
    | exact h
    | (obtain ⟨body, h1, h2⟩ := h; exact ⟨body, h1, hi _ _ _ h1.length h2⟩)

theorem DecArm.imp {a : Arm} {p : Bytes} {x : RVal}
    (hi : ∀ m body v, body.length < p.length → sub m body v → sub' m body v) (h : DecArm C sub a p x) :
    DecArm C sub' a p x := by
  unfold DecArm at h ⊢
  by_cases h0 : (a.choice.isSome || a.field.boxed) = true
  · simp only [h0, if_true] at h ⊢
    exact h.imp hi
  simp only [h0, Bool.false_eq_true, if_false] at h ⊢
  cases hg : a.field.frequency.generated with
  | singular =>
    simp only [hg] at h ⊢
    exact h.imp hi
  | arrayLike =>
    simp only [hg] at h ⊢
    by_cases hp : a.field.isPacked = true
    · simp only [hp, if_true] at h ⊢
      obtain ⟨body, hd, h⟩ := h
      have hbl := hd.length
      refine ⟨body, hd, ?_⟩
      by_cases hfx : a.field.typ.isFixedSize = true
      · simp only [hfx, if_true] at h ⊢
        exact h
      · simp only [hfx, Bool.false_eq_true, if_false] at h ⊢
        obtain ⟨l, hl, rfl⟩ := h
        exact ⟨l, hl.imp (fun q u hq hu => hu.imp (fun m b v hb => hi m b v (by omega))), rfl⟩
    · simp only [hp, Bool.false_eq_true, if_false] at h ⊢
      exact h.imp hi
  | map =>
    simp only [hg] at h ⊢
    obtain ⟨k, v, body, us, ht, hd, hp, rfl⟩ := h
    have hbl := hd.length
    refine ⟨k, v, body, us, ht, hd, hp.imp ?_, rfl⟩
    rintro q u hq ⟨t, q', rfl, hu⟩
    simp only [List.length_cons] at hq
    refine ⟨t, q', rfl, ?_⟩
    rcases hu with ⟨h1, h2, h3⟩ | ⟨h1, h2, h3⟩
    · exact Or.inl ⟨h1, h2, h3.imp (fun m b v hb => hi m b v (by omega))⟩
    · exact Or.inr ⟨h1, h2, h3.imp (fun m b v hb => hi m b v (by omega))⟩

theorem Record.imp {m : Message} {r : Bytes} {u : Option Item}
    (hi : ∀ m body v, body.length < r.length → sub m body v → sub' m body v) (h : Record C sub m r u) :
    Record C sub' m r u := by
  obtain ⟨g, p, hg, rfl, h⟩ := h
  refine ⟨g, p, hg, rfl, ?_⟩
  rcases h with ⟨a, ha, x, h1, h2, rfl⟩ | h
  · exact Or.inl ⟨a, ha, x, h1, h2.imp (fun m b v hb => hi m b v (by simp; omega)), rfl⟩
  · exact Or.inr h

end

theorem DecMsg.depth {C : Ctx} (n : Nat) : ∀ idx b v, DecMsg C n idx b v → ∀ k, b.length < k → DecMsg C k idx b v := by
  induction n with
  | zero => intro _ _ _ h; exact h.elim
  | succ n ih =>
    rintro idx b v ⟨m, hm, h⟩ k hk
    obtain ⟨k, rfl⟩ : ∃ j, k = j + 1 := ⟨k - 1, by omega⟩
    refine ⟨m, hm, ?_⟩
    split at h
    · rename_i hu; rw [if_pos hu]; exact h
    · rename_i hu
      rw [if_neg hu]
      obtain ⟨slots, ⟨us, hp, hs⟩, hv⟩ := h
      exact ⟨slots, ⟨us, hp.imp (fun r u hr hu => hu.imp (fun m' b' v' hb hd => ih m' b' v' hd k (by omega))), hs⟩, hv⟩

theorem denotes_iff {C : Ctx} {idx : MessageIndex} {b : Bytes} {v : RVal} :
    Denotes C idx b v ↔ DecMsg C (b.length + 1) idx b v :=
  ⟨fun ⟨n, h⟩ => h.depth n idx b v _ (by omega), fun h => ⟨_, h⟩⟩

/-- What a message denotes, one level unfolded. -/
theorem denotes_unfold {C : Ctx} {idx : MessageIndex} {b : Bytes} {v : RVal} :
    Denotes C idx b v ↔ ∃ m, C.D.getMessage idx = Option.some m ∧
      if m.isUnit then v = C.dflt idx
      else ∃ slots, Merges C (Denotes C) m (C.dflt idx).slots b slots ∧ v = .struct slots := by
  constructor
  · rintro ⟨n, h⟩
    cases n with
    | zero => exact h.elim
    | succ n =>
      obtain ⟨m, hm, h⟩ := h
      refine ⟨m, hm, ?_⟩
      split at h
      · rename_i hu; rw [if_pos hu]; exact h
      · rename_i hu
        rw [if_neg hu]
        obtain ⟨slots, ⟨us, hp, hs⟩, hv⟩ := h
        exact ⟨slots, ⟨us, hp.imp (fun r u hr hu => hu.imp (fun m' b' v' hb hd => ⟨n, hd⟩)), hs⟩, hv⟩
  · rintro ⟨m, hm, h⟩
    refine ⟨b.length + 1, m, hm, ?_⟩
    split at h
    · rename_i hu; rw [if_pos hu]; exact h
    · rename_i hu
      rw [if_neg hu]
      obtain ⟨slots, ⟨us, hp, hs⟩, hv⟩ := h
      exact ⟨slots, ⟨us, hp.imp (fun r u hr hu => hu.imp (fun m' b' v' hb hd =>
        DecMsg.depth _ _ _ _ (denotes_iff.mp hd) _ (by omega))), hs⟩, hv⟩

/-! ## C63: the decoder accepts exactly the wire grammar -/

/-- **C63**, in every profile: a byte string that denotes a value is decoded as that value. -/
theorem C63_decode_complete (C : Ctx) (hS : SchemaOk C) (idx : MessageIndex) (b : Bytes) (v : RVal)
    (hl : b.length < 2 ^ C.T.usizeBits) (h : Denotes C idx b v) : decode C idx b = .ok v := by
  obtain ⟨n, h⟩ := h
  have := fromReader_of_dec hS n idx b v h (b.length + 1) (by omega) [] [] (by simpa using hl)
  unfold decode from_bytes
  simp only [List.nil_append, List.append_nil, List.length_nil, Nat.zero_add] at this
  rw [this]

/-- **C63.** With overflow checks, for every well-formed schema, every message of it and every input:
decoding returns `Ok(v)` if and only if the input denotes `v` — it is a sequence of records, each the
tag of a field with a payload denoting a value of its type, or an unknown tag with a payload of its
wire type, and `v` collects them. Everything else is an error or a panic. -/
theorem C63_decode_iff (C : Ctx) (hT : C.T.overflowChecks = true) (hS : SchemaOk C) (idx : MessageIndex)
    (b : Bytes) (hR : Roomy C.T b) (v : RVal) : decode C idx b = .ok v ↔ Denotes C idx b v := by
  constructor
  · intro h
    unfold decode at h
    rcases hr : fromReader C (b.length + 1) idx b (from_bytes b) with ⟨o, r'⟩
    rw [hr] at h
    simp only at h
    subst h
    have := (dec_fromReader hT hS (b.length + 1) idx).sound b 0 b.length v r' hR (by omega) (by omega) hr
    rw [slice_all] at this
    exact ⟨_, this⟩
  · refine C63_decode_complete C hS idx b v ?_
    unfold Roomy at hR; omega

/-- A target on which every buffer fits. -/
def bigTarget (n : Nat) : Target := { Target.debug64 with usizeBits := n + 64 }

/-- A byte string denotes at most one value. -/
theorem Denotes.unique {C : Ctx} (hS : SchemaOk C) {idx : MessageIndex} {b : Bytes} {v w : RVal}
    (h1 : Denotes C idx b v) (h2 : Denotes C idx b w) : v = w := by
  have key : ∀ T v, Denotes C idx b v → Denotes { C with T := T } idx b v := by
    intro T v h
    have dt : ∀ sub, DecTyp { C with T := T } sub = DecTyp C sub := fun sub => by funext t p x; cases t <;> rfl
    have td : ∀ t, typDefault { C with T := T } t = typDefault C t := fun t => by cases t <;> rfl
    have dm : ∀ n idx, DecMsg { C with T := T } n idx = DecMsg C n idx := by
      intro n
      induction n with
      | zero => intro idx; rfl
      | succ n ih =>
        intro idx; funext b v
        have e : DecMsg { C with T := T } n = DecMsg C n := funext ih
        have ep : ∀ k v, DecPart { C with T := T } (DecMsg C n) k v = DecPart C (DecMsg C n) k v := by
          intro k v; funext p u; unfold DecPart; rw [dt]
        have ea : ∀ a, DecArm { C with T := T } (DecMsg C n) a = DecArm C (DecMsg C n) a := by
          intro a; funext p x; unfold DecArm; rw [dt]; simp only [ep, td]
        have er : ∀ m, Record { C with T := T } (DecMsg C n) m = Record C (DecMsg C n) m := by
          intro m; funext r u; unfold Record; simp only [ea]
        show (∃ m, _ ∧ _) = (∃ m, _ ∧ _)
        unfold Merges
        rw [e]
        simp only [er]
    obtain ⟨n, h⟩ := h
    exact ⟨n, by rw [dm]; exact h⟩
  have hl : b.length < 2 ^ (bigTarget b.length).usizeBits :=
    Nat.lt_of_lt_of_le Nat.lt_two_pow_self (Nat.pow_le_pow_right (by omega) (by simp [bigTarget]))
  have e1 := C63_decode_complete { C with T := bigTarget b.length } hS idx b v hl (key _ v h1)
  have e2 := C63_decode_complete { C with T := bigTarget b.length } hS idx b w hl (key _ w h2)
  rw [e1] at e2
  cases e2; rfl

/-- An input with a non-canonical varint, an unknown field, a nested message and a repeated string: what it denotes. -/
example : Denotes (Example.ctx Target.debug64) [0]
    [0x08#8, 0x96#8, 0x01#8, 0xa0#8, 0x06#8, 0x01#8, 0x3a#8, 0x02#8, 0x08#8, 0x01#8, 0x2a#8, 0x01#8, 0x62#8]
    (.struct [.w32 150, .bytes [], .vec [], .pf32 .noDataYet, .vec [.bytes [0x62#8]], .map [],
      .some (.struct [.w32 1, .bytes [], .vec [], .pf32 .noDataYet, .vec [], .map [], .none, .w32 0, .w32 0, .none]),
      .w32 0, .w32 0, .none]) :=
  (C63_decode_iff (Example.ctx Target.debug64) rfl (Example.schemaOk _) [0] _ (roomy64 _ rfl _ (by decide)) _).mp rfl

end QP.Gen
