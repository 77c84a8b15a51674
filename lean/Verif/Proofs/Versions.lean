import Verif.Spec.Versions
import Verif.Props.Compat
import Verif.Proofs.Depth
/-!
# What one version writes, the other reads
-/

set_option linter.unusedVariables false

namespace QP.Gen
open QP.Pbrs Spec

variable {W R : Ctx} {P : MessageIndex → MessageIndex → Prop}

theorem ofNat32_twos64 (i : Int) : BitVec.ofNat 32 (twos64 i) = BitVec.ofInt 32 i := by
  apply BitVec.eq_of_toNat_eq
  rw [BitVec.toNat_ofNat, BitVec.toNat_ofInt, twos64]
  omega

theorem ofNat64_twos64 (i : Int) : BitVec.ofNat 64 (twos64 i) = BitVec.ofInt 64 i := by
  apply BitVec.eq_of_toNat_eq
  rw [BitVec.toNat_ofNat, BitVec.toNat_ofInt, twos64]
  omega

theorem twos64_lt (i : Int) : twos64 i < 2 ^ 64 := by
  unfold twos64; omega

theorem enc_varintInt {enc : MessageIndex → RVal → Bytes} {t : FieldType} {x : RVal} {i : Int} (h : varintInt t x = Option.some i) :
    encTyp enc t x = varint (twos64 i) ∧ (t.isNarrow = true → -2 ^ 31 ≤ i ∧ i < 2 ^ 32) := by
  unfold varintInt at h
  split at h <;> cases h <;> simp only [encTyp, FieldType.isNarrow]
  · rename_i y; exact ⟨trivial, fun _ => by have := BitVec.toInt_lt (x := y); have := BitVec.le_toInt (x := y); omega⟩
  · rename_i y; exact ⟨trivial, fun _ => by have := BitVec.toInt_lt (x := y); have := BitVec.le_toInt (x := y); omega⟩
  · exact ⟨trivial, fun h => by cases h⟩
  · rename_i y; exact ⟨by congr 1; unfold twos64; have := y.isLt; omega, fun _ => by have := y.isLt; omega⟩
  · rename_i y; exact ⟨by congr 1; unfold twos64; have := y.isLt; omega, fun h => by cases h⟩
  · rename_i b; cases b <;> exact ⟨rfl, fun _ => by decide⟩

theorem dec_varintInt {sub : MessageIndex → Bytes → RVal → Prop} {t : FieldType} {i : Int} (ht : t.isVarint = true)
    (hb : t = .bool → -2 ^ 31 ≤ i ∧ i < 2 ^ 32) : DecTyp R sub t (varint (twos64 i)) (ofVarintInt R t i) := by
  have hv := IsVarint.of_canonical (twos64_lt i)
  cases t <;> simp only [FieldType.isVarint, Bool.false_eq_true] at ht <;> simp only [DecTyp, ofVarintInt, varintVal_varint] <;> refine ⟨hv, ?_⟩
  · rw [ofNat32_twos64]
  · rw [ofNat64_twos64]
  · rw [ofNat32_twos64]
  · rw [ofNat64_twos64]
  · have := hb rfl
    congr 1
    unfold twos64
    rw [decide_eq_decide]
    omega
  · rename_i e
    rw [ofNat32_twos64]
    by_cases h : BitVec.ofInt 32 i ∈ R.enumNums e
    · exact Or.inl ⟨h, by rw [if_pos h]⟩
    · exact Or.inr ⟨h, by rw [if_neg h, typDefault]⟩

theorem hasType_varintInt {sub : MessageIndex → RVal → Prop} {t : FieldType} {x : RVal} (h : HasType W sub t x) :
    (t.isVarint = true ↔ ∃ i, varintInt t x = Option.some i) := by
  cases t <;> simp only [HasType] at h <;> simp only [FieldType.isVarint] <;>
    first
    | (obtain ⟨y, rfl, _⟩ := h; simp [varintInt])
    | (obtain ⟨y, rfl⟩ := h; simp [varintInt])
    | (cases x <;> simp [varintInt])

theorem sint32Wire_lt (x : BitVec 32) : sint32Wire x < 2 ^ 64 := by
  rw [← sint32Wire_eq]; exact BitVec.isLt _

theorem zigzag_lt64 (x : BitVec 64) : zigzag x.toInt < 2 ^ 64 := by
  have := BitVec.toInt_lt (x := x); have := BitVec.le_toInt (x := x)
  unfold zigzag; split <;> omega

theorem zigzag_lt32 (x : BitVec 32) : zigzag x.toInt < 2 ^ 32 := by
  have := BitVec.toInt_lt (x := x); have := BitVec.le_toInt (x := x)
  unfold zigzag; split <;> omega

theorem delimited_ok {b : Bytes} (h : (delimited b).length < 2 ^ 32) : Delimited (delimited b) b := by
  refine delimited_varint ?_
  rw [delimited, List.length_append] at h
  omega

/-- One value. -/
theorem typ_carried {subT : MessageIndex → RVal → Prop} {enc : MessageIndex → RVal → Bytes} {dec : MessageIndex → Bytes → RVal → Prop}
    {car : MessageIndex → MessageIndex → RVal → RVal → Prop} {t t' : FieldType} {x : RVal} (h : HasType W subT t x)
    (hc : Convertible P t t') (hl : (encTyp enc t x).length < 2 ^ 32)
    (hs : ∀ i i', P i i' → subT i x → (enc i x).length < 2 ^ 32 → ∃ x', dec i' (enc i x) x' ∧ car i i' x x') :
    ∃ x', DecTyp R dec t' (encTyp enc t x) x' ∧ Carries R car t t' x x' := by
  by_cases hv : t.isVarint = true
  · obtain ⟨i, hi⟩ := (hasType_varintInt h).mp hv
    obtain ⟨he, hn⟩ := enc_varintInt (enc := enc) hi
    have hc' : t'.isVarint = true ∧ (t' = .bool → t.isNarrow = true) := by
      revert hc hv
      cases t <;> cases t' <;> simp [Convertible, FieldType.isVarint, FieldType.isNarrow]
    rw [he]
    refine ⟨_, dec_varintInt hc'.1 (fun hb => hn (hc'.2 hb)), ?_⟩
    unfold Carries
    split
    · simp [FieldType.isVarint] at hv
    · simp only [hi]
  · have hnv : varintInt t x = Option.none := by
      cases hi : varintInt t x with
      | none => rfl
      | some i => exact absurd ((hasType_varintInt h).mpr ⟨i, hi⟩) hv
    have hnv' : t.isVarint = false := by simpa using hv
    revert hc hl h
    cases t <;> simp only [FieldType.isVarint, Bool.true_eq_false] at hnv' <;> cases t' <;> intro h hc hl <;>
      simp only [Convertible, FieldType.isVarint, Bool.false_eq_true, false_and] at hc <;> simp only [HasType] at h
    all_goals first
      | (obtain ⟨y, rfl⟩ := h
         simp only [Carries, varintInt, DecTyp, encTyp]
         first
         | exact ⟨_, ⟨length_le _ _, by rw [leVal_le, Nat.mod_eq_of_lt (by have := y.isLt; omega), BitVec.ofNat_toNat, BitVec.setWidth_eq]⟩, rfl⟩
         | exact ⟨_, ⟨IsVarint.of_canonical (sint32Wire_lt _), y, rfl, by
             rw [varintVal_varint, sint32Wire]; have := zigzag_lt32 y; split <;> omega⟩, rfl⟩
         | exact ⟨_, ⟨IsVarint.of_canonical (zigzag_lt64 _), y, rfl, by
             rw [varintVal_varint, Nat.mod_eq_of_lt (zigzag_lt64 _)]⟩, rfl⟩
         | exact ⟨_, ⟨_, delimited_ok hl, rfl⟩, rfl⟩)
      | (obtain ⟨y, rfl, hu⟩ := h
         simp only [Carries, varintInt, DecTyp, encTyp]
         first
         | exact ⟨_, ⟨_, delimited_ok hl, hu, rfl⟩, rfl⟩
         | exact ⟨_, ⟨_, delimited_ok hl, rfl⟩, rfl⟩)
      | (simp only [encTyp] at hl ⊢
         simp only [Carries, DecTyp]
         have hd := delimited_ok hl
         obtain ⟨x', h1, h2⟩ := hs _ _ hc h (by have := Delimited.length hd; omega)
         exact ⟨x', ⟨_, hd, h1⟩, h2⟩)

/-! ## Records -/

theorem length_le_flat (k : Nat) (l : List (BitVec (8 * k))) : (l.flatMap fun x => le k x.toNat).length = l.length * k := by
  induction l with
  | nil => simp
  | cons a l ih => rw [List.flatMap_cons, List.length_append, length_le, ih, List.length_cons]; rw [Nat.add_mul]; omega

theorem pfElems_flat {k : Nat} (hk : 0 < k) (l : List (BitVec (8 * k))) :
    pfElems (.borrowed (l.flatMap fun x => le k x.toNat)) = l := by
  have hlen := length_le_flat k l
  simp only [pfElems, hlen, Nat.mul_div_cancel _ hk]
  clear hlen
  induction l with
  | nil => rfl
  | cons a l ih =>
    rw [List.length_cons, List.range_succ_eq_map, List.map_cons, List.map_map]
    congr 1
    · rw [Nat.zero_mul, List.drop_zero, List.flatMap_cons, List.take_append_of_le_length (by rw [length_le]; omega),
        List.take_of_length_le (by rw [length_le]; omega), leVal_le]
      apply BitVec.eq_of_toNat_eq
      rw [BitVec.toNat_ofNat]
      have := a.isLt
      have e : (256 : Nat) ^ k = 2 ^ (8 * k) := by rw [Nat.pow_mul]
      rw [e, Nat.mod_mod, Nat.mod_eq_of_lt this]
    · refine Eq.trans ?_ ih
      refine List.map_congr_left fun i _ => ?_
      simp only [Function.comp_apply, List.flatMap_cons]
      rw [show (i + 1) * k = (le k a.toNat).length + i * k from by rw [length_le, Nat.add_mul]; omega, List.drop_length_add_append]

theorem take_whole {k : Nat} (hk : 0 < k) (l : List (BitVec (8 * k))) :
    (l.flatMap fun x => le k x.toNat).take ((l.flatMap fun x => le k x.toNat).length / k * k) = l.flatMap fun x => le k x.toNat := by
  rw [length_le_flat, Nat.mul_div_cancel _ hk, ← length_le_flat, List.take_length]

theorem convertible_wire {t t' : FieldType} (h : Convertible P t t') : t'.wireTypeNumNonPacked = t.wireTypeNumNonPacked := by
  revert h
  cases t <;> cases t' <;> simp [Convertible, FieldType.isVarint, FieldType.wireTypeNumNonPacked]

theorem typ_payload {subT : MessageIndex → RVal → Prop} {enc : MessageIndex → RVal → Bytes} {t : FieldType} {x : RVal}
    (h : HasType W subT t x) (hl : (encTyp enc t x).length < 2 ^ 32) : Payload t.wireTypeNumNonPacked (encTyp enc t x) := by
  have hdel : ∀ b : Bytes, (delimited b).length < 2 ^ 32 → Payload 2 (delimited b) := by
    intro b hb
    obtain ⟨g, hg, hl, hp⟩ := delimited_ok hb
    have := delimited_length b
    refine Payload.delimited (IsVarint.of_canonical (by omega)) ?_
    rw [varintVal_varint]
    omega
  by_cases hv : t.isVarint = true
  · obtain ⟨i, hi⟩ := (hasType_varintInt h).mp hv
    rw [(enc_varintInt (enc := enc) hi).1]
    have : t.wireTypeNumNonPacked = 0 := by revert hv; cases t <;> simp [FieldType.isVarint, FieldType.wireTypeNumNonPacked]
    rw [this]
    exact Payload.varint (IsVarint.of_canonical (twos64_lt i))
  · revert hl h
    cases t <;> simp only [FieldType.isVarint, not_true_eq_false] at hv <;> intro h hl <;> simp only [HasType] at h <;> simp only [FieldType.wireTypeNumNonPacked]
    all_goals first
      | (obtain ⟨y, rfl⟩ := h
         first
         | exact Payload.fixed32 (length_le _ _)
         | exact Payload.fixed64 (length_le _ _)
         | exact Payload.varint (IsVarint.of_canonical (sint32Wire_lt _))
         | exact Payload.varint (IsVarint.of_canonical (zigzag_lt64 _))
         | exact hdel _ hl)
      | (obtain ⟨y, rfl, hu⟩ := h; exact hdel _ hl)
      | (simp only [encTyp] at hl ⊢; exact hdel _ hl)

/-- What a record of the writer holds. -/
def ItemTyped (W : Ctx) (subT : MessageIndex → RVal → Prop) (a : Arm) (x : RVal) : Prop :=
  (a.kind = .map ∧ ∃ k t e, a.field.typ = .map k t ∧ x = .map [e] ∧ HasType W subT k e.1 ∧ HasType W subT t e.2) ∨
  (a.kind ≠ .map ∧ a.packs = false ∧ HasType W subT a.field.typ x) ∨
  (a.kind = .arrayLike ∧ a.packs = true ∧ a.field.typ.wireTypeNumNonPacked = 1 ∧ ∃ p, x = .pf64 p) ∨
  (a.kind = .arrayLike ∧ a.packs = true ∧ a.field.typ.wireTypeNumNonPacked = 5 ∧ ∃ p, x = .pf32 p) ∨
  (a.kind = .arrayLike ∧ a.packs = true ∧ a.field.typ.isFixedSize = false ∧ ∃ l, x = .vec l ∧ ∀ y ∈ l, HasType W subT a.field.typ y)

theorem Arm.kind_none {j : Nat} {f : Field} : (Arm.mk j f Option.none).kind = f.frequency.generated := rfl

theorem Arm.packs_none {j : Nat} {f : Field} : (Arm.mk j f Option.none).packs = (f.isPacked && f.frequency.generated == .arrayLike) := rfl

/-- The payload by kind of field. -/
theorem itemPayload_kind (enc : MessageIndex → RVal → Bytes) (a : Arm) (x : RVal) : itemPayload enc (a, x) =
    match a.kind with
    | .map => (match a.field.typ, x with
      | .map k t, .map [e] => delimited (entryEnc enc k t e)
      | _, _ => [])
    | _ => if a.packs then (match x with
        | .vec l => delimited (l.flatMap (encTyp enc a.field.typ))
        | .pf32 p => delimited ((pfElems p).flatMap (fun x => le 4 x.toNat))
        | .pf64 p => delimited ((pfElems p).flatMap (fun x => le 8 x.toNat))
        | _ => [])
      else encTyp enc a.field.typ x := by
  unfold itemPayload Arm.packs Arm.kind
  cases hc : a.choice
  · cases hg : a.field.frequency.generated
    · simp
    · simp only [Option.isSome_none, Bool.false_eq_true, if_false, BEq.rfl, Bool.and_true]
      rfl
    · simp only [Option.isSome_none, Bool.false_eq_true, if_false]
      rfl
  · simp

/-- What is denoted by kind of field. -/
theorem decArm_kind {C : Ctx} {sub : MessageIndex → Bytes → RVal → Prop} {a : Arm} (hb : a.field.boxed = true → a.kind = .singular) (p : Bytes) (x : RVal) :
    DecArm C sub a p x ↔
    match a.kind with
    | .map => ∃ k v body us, a.field.typ = .map k v ∧ Delimited p body ∧ Parses (DecPart C sub k v) body us ∧
        x = .map [(lastPart false (typDefault C k) us, lastPart true (typDefault C v) us)]
    | _ => if a.packs then ∃ body, Delimited p body ∧
          if a.field.typ.isFixedSize then
            if a.field.typ.wireTypeNumNonPacked = 1 then x = .pf64 (.borrowed (body.take (body.length / 8 * 8)))
            else x = .pf32 (.borrowed (body.take (body.length / 4 * 4)))
          else ∃ l, Parses (DecTyp C sub a.field.typ) body l ∧ x = .vec l
      else DecTyp C sub a.field.typ p x := by
  unfold DecArm
  cases hc : a.choice
  · have hk : a.kind = a.field.frequency.generated := by rw [Arm.kind, hc]; rfl
    cases hbx : a.field.boxed
    · simp only [Option.isSome_none, Bool.or_self, Bool.false_eq_true, if_false, hk, Arm.packs]
      cases hg : a.field.frequency.generated
      · simp
      · simp only [BEq.rfl, Bool.and_true]
      · simp only
    · have := hb hbx
      simp [Arm.packs, this]
  · have hk : a.kind = .singular := by rw [Arm.kind, hc]; rfl
    simp [hk, Arm.packs]

theorem item_typed {Q : Field → RVal → Prop} {subT : MessageIndex → RVal → Prop} {mem : Member} {v : RVal} (h : MemberTyped W Q subT mem v) {j : Nat}
    {it : Item} (hi : it ∈ memberItems W j mem v) : ItemTyped W subT it.1 it.2 := by
  cases mem with
  | oneof fs =>
    rcases h with rfl | ⟨i, f, x, hf, rfl, hx⟩
    · simp [memberItems] at hi
    · simp only [memberItems, hf, List.mem_singleton] at hi
      subst hi
      exact Or.inr (Or.inl ⟨by simp [Arm.kind], by simp [Arm.packs, Arm.kind], hx⟩)
  | field f =>
    simp only [MemberTyped, FieldTyped] at h
    simp only [memberItems, List.mem_map] at hi
    obtain ⟨x, hx, rfl⟩ := hi
    simp only [ItemTyped, Arm.kind_none, Arm.packs_none]
    cases hg : f.frequency.generated <;> simp only [hg] at h hx ⊢
    · right; left
      refine ⟨by simp, by simp, ?_⟩
      by_cases ho : f.frequency.isOptional = true
      · rw [if_pos ho] at h hx
        rcases h with rfl | ⟨y, rfl, hy⟩
        · simp at hx
        · simp only [List.mem_singleton] at hx; subst hx; exact hy
      · rw [if_neg ho] at h hx
        have : x = v := by
          split at hx
          · simpa using hx
          · split at hx
            · simp at hx
            · simpa using hx
        rw [this]; exact h.1
    · by_cases hp : f.isPacked = true
      · have hpk : (f.isPacked && GeneratedType.arrayLike == GeneratedType.arrayLike) = true := by simp [hp]
        right; right
        rw [if_pos hp] at hx
        simp only [isPackedFixed, hp, Bool.true_and] at h
        by_cases hfx : f.typ.isFixedSize = true
        · rw [if_pos hfx] at h
          by_cases h1 : f.typ.wireTypeNumNonPacked = 1
          · rw [if_pos h1] at h
            obtain ⟨p, rfl, _⟩ := h
            left
            refine ⟨trivial, hpk, h1, p, ?_⟩
            simp only at hx
            split at hx <;> simp_all
          · rw [if_neg h1] at h
            obtain ⟨p, rfl, _⟩ := h
            right; left
            refine ⟨trivial, hpk, ?_, p, ?_⟩
            · simp only [FieldType.isFixedSize, Bool.or_eq_true, beq_iff_eq] at hfx
              exact hfx.resolve_left h1
            · simp only at hx
              split at hx <;> simp_all
        · rw [if_neg hfx] at h
          obtain ⟨l, rfl, hl⟩ := h
          right; right
          refine ⟨trivial, hpk, by simpa using hfx, l, ?_, hl⟩
          simp only at hx
          split at hx <;> simp_all
      · right; left
        rw [if_neg hp] at hx
        rw [if_neg (by simp [isPackedFixed, hp])] at h
        obtain ⟨l, rfl, hl⟩ := h
        exact ⟨by simp, by simp [hp], hl x hx⟩
    · left
      obtain ⟨k, t, l, ht, rfl, hl, _⟩ := h
      simp only [List.mem_map] at hx
      obtain ⟨e, he, rfl⟩ := hx
      exact ⟨trivial, k, t, e, ht, rfl, (hl e he).1, (hl e he).2⟩

theorem fieldTag_mod8 (f : Field) : fieldTag f % 8 = f.typ.wireTypeNum f.isPacked := by
  have := wireTypeNum_lt f.typ f.isPacked
  unfold fieldTag Spec.tag
  omega

theorem delimited_payload {b : Bytes} (hb : (delimited b).length < 2 ^ 32) : Payload 2 (delimited b) := by
  have := delimited_length b
  refine Payload.delimited (IsVarint.of_canonical (by omega)) ?_
  rw [varintVal_varint]
  omega

theorem packs_isPacked {a : Arm} (h : a.packs = true) : a.field.isPacked = true ∧ a.kind = .arrayLike := by
  simp only [Arm.packs, Bool.and_eq_true, beq_iff_eq] at h
  exact h

/-- A record can be skipped by a reader that does not know its number. -/
theorem item_payload {subT : MessageIndex → RVal → Prop} {enc : MessageIndex → RVal → Bytes} {it : Item} (h : ItemTyped W subT it.1 it.2)
    (hp : it.1.field.isPacked = true → it.1.kind = .arrayLike)
    (hl : (itemPayload enc it).length < 2 ^ 32) : Payload (fieldTag it.1.field % 8) (itemPayload enc it) := by
  rw [fieldTag_mod8]
  obtain ⟨a, x⟩ := it
  simp only at h hp
  rw [itemPayload_kind] at hl ⊢
  rcases h with ⟨hg, k, t, e, ht, rfl, _, _⟩ | ⟨hg, hpk, hx⟩ | ⟨hg, hpk, h1, p, rfl⟩ | ⟨hg, hpk, h1, p, rfl⟩ | ⟨hg, hpk, h1, l, rfl, hx⟩
  · have hnp : a.field.isPacked = false := by
      cases hq : a.field.isPacked with
      | false => rfl
      | true => rw [hp hq] at hg; cases hg
    simp only [hg, ht] at hl ⊢
    rw [FieldType.wireTypeNum, hnp]
    exact delimited_payload hl
  · have hnp : a.field.isPacked = false := by
      cases hq : a.field.isPacked with
      | false => rfl
      | true => rw [Arm.packs, hq, hp hq] at hpk; cases hpk
    rw [FieldType.wireTypeNum, hnp]
    simp only [hpk, Bool.false_eq_true, if_false] at hl ⊢
    cases hg' : a.kind <;> simp only [hg', ne_eq, not_true_eq_false] at hg hl ⊢
    · exact typ_payload hx hl
    · exact typ_payload hx hl
  all_goals
    simp only [hg, hpk, if_true] at hl ⊢
    rw [FieldType.wireTypeNum, (packs_isPacked hpk).1, if_pos rfl]
    exact delimited_payload hl

/-- What becomes of a record of the writer that the reader knows. -/
def ItemCarried (R : Ctx) (car : MessageIndex → MessageIndex → RVal → RVal → Prop) (a a' : Arm) (x x' : RVal) : Prop :=
  match a.kind with
  | .map => ∃ k t k' t' e e', a.field.typ = .map k t ∧ a'.field.typ = .map k' t' ∧ x = .map [e] ∧ x' = .map [e'] ∧ e'.1 = e.1 ∧
      Carries R car t t' e.2 e'.2
  | _ =>
    if a.packs then
      if a.field.typ.isFixedSize then
        (∃ p p', x = .pf64 p ∧ x' = .pf64 p' ∧ pfElems p' = pfElems p) ∨ (∃ p p', x = .pf32 p ∧ x' = .pf32 p' ∧ pfElems p' = pfElems p)
      else ∃ l l', x = .vec l ∧ x' = .vec l' ∧ List.Forall₂ (Carries R car a.field.typ a'.field.typ) l l'
    else Carries R car a.field.typ a'.field.typ x x'

theorem parses_carried {subT : MessageIndex → RVal → Prop} {enc : MessageIndex → RVal → Bytes} {dec : MessageIndex → Bytes → RVal → Prop}
    {car : MessageIndex → MessageIndex → RVal → RVal → Prop} {t t' : FieldType} (hc : Convertible P t t')
    (hs : ∀ x i i', P i i' → subT i x → (enc i x).length < 2 ^ 32 → ∃ x', dec i' (enc i x) x' ∧ car i i' x x') :
    ∀ l : List RVal, (∀ x ∈ l, HasType W subT t x) → (l.flatMap (encTyp enc t)).length < 2 ^ 32 →
    ∃ l', Parses (DecTyp R dec t') (l.flatMap (encTyp enc t)) l' ∧ List.Forall₂ (Carries R car t t') l l'
  | [], _, _ => ⟨[], .nil, .nil⟩
  | x :: l, h, hl => by
    rw [List.flatMap_cons, List.length_append] at hl
    obtain ⟨x', h1, h2⟩ := typ_carried (h x (List.mem_cons_self ..)) hc (by omega) (hs x)
    obtain ⟨l', h3, h4⟩ := parses_carried hc hs l (fun y hy => h y (List.mem_cons_of_mem _ hy)) (by omega)
    exact ⟨x' :: l', .cons h1 h3, .cons h2 h4⟩

theorem sameKey_carries {P : MessageIndex → MessageIndex → Prop} {subT : MessageIndex → RVal → Prop} {k k' : FieldType} (h : SameKey k k') :
    Convertible P k k' ∧ ∀ (W' R : Ctx) (car : MessageIndex → MessageIndex → RVal → RVal → Prop) (x x' : RVal), HasType W' subT k x → Carries R car k k' x x' → x' = x := by
  revert h
  cases k <;> cases k' <;> simp only [SameKey, Convertible, reduceCtorEq, FieldType.isVarint, FieldType.isNarrow, false_implies, forall_const, true_and, and_self, implies_true] <;>
    intro W' R car x x' hx hc <;> simp only [HasType] at hx <;>
    (first | obtain ⟨y, rfl, _⟩ := hx | obtain ⟨y, rfl⟩ := hx) <;> simp only [Carries, varintInt, ofVarintInt] at hc <;> rw [hc]
  · rw [BitVec.ofInt_toInt]
  · rw [BitVec.ofInt_toInt]
  · rw [BitVec.ofInt_natCast, BitVec.ofNat_toNat, BitVec.setWidth_eq]
  · rw [BitVec.ofInt_natCast, BitVec.ofNat_toNat, BitVec.setWidth_eq]
  · cases y <;> rfl

theorem partTag {n w : Nat} (hn : n < 16) (hw : w < 8) : varint (Spec.tag n w) = [BitVec.ofNat 8 (n * 8 + w)] := by
  rw [varint, if_pos (by unfold Spec.tag; omega), Spec.tag]

theorem fieldsAgree_map {a a' : Arm} (h : FieldsAgree P a a') : a.kind = .map ↔ a'.kind = .map := by
  unfold FieldsAgree at h
  revert h
  cases a.kind <;> cases a'.kind <;> simp

theorem fieldsAgree_other {a a' : Arm} (h : FieldsAgree P a a') (hk : a.kind ≠ .map) : a.packs = a'.packs ∧ Convertible P a.field.typ a'.field.typ := by
  have := mt (fieldsAgree_map h).mpr hk
  unfold FieldsAgree at h
  revert h this hk
  cases a.kind <;> cases a'.kind <;> simp

theorem item_known {subT : MessageIndex → RVal → Prop} {enc : MessageIndex → RVal → Bytes} {dec : MessageIndex → Bytes → RVal → Prop}
    {car : MessageIndex → MessageIndex → RVal → RVal → Prop} {it : Item} {a' : Arm} (h : ItemTyped W subT it.1 it.2)
    (hb : a'.field.boxed = true → a'.kind = .singular) (hA : FieldsAgree P it.1 a')
    (hl : (itemPayload enc it).length < 2 ^ 32)
    (hs : ∀ x i i', P i i' → subT i x → (enc i x).length < 2 ^ 32 → ∃ x', dec i' (enc i x) x' ∧ car i i' x x') :
    ∃ x', DecArm R dec a' (itemPayload enc it) x' ∧ ItemCarried R car it.1 a' it.2 x' := by
  obtain ⟨a, x⟩ := it
  simp only at h hA ⊢
  simp only [decArm_kind hb]
  rw [itemPayload_kind] at hl ⊢
  rcases h with ⟨hg, k, t, e, ht, rfl, hk, hv⟩ | ⟨hg, hpk, hx⟩ | ⟨hg, hpk, h1, p, rfl⟩ | ⟨hg, hpk, h1, p, rfl⟩ | ⟨hg, hpk, h1, l, rfl, hx⟩
  · have hg' := (fieldsAgree_map hA).mp hg
    simp only [FieldsAgree, hg, hg'] at hA
    obtain ⟨k0, t0, k', t', e1, e2, hsk, hct⟩ := hA
    rw [ht] at e1; cases e1
    simp only [hg, ht] at hl ⊢
    simp only [hg', ItemCarried, hg]
    have hd := delimited_ok hl
    have hlb : (entryEnc enc k t e).length < 2 ^ 32 := by have := Delimited.length hd; omega
    rw [entryEnc, List.length_append, List.length_append, List.length_append] at hlb
    obtain ⟨ck, ek⟩ := sameKey_carries (P := P) (subT := subT) hsk
    obtain ⟨xk, d1, c1⟩ := typ_carried (R := R) (enc := enc) (dec := dec) (car := car) hk ck (by omega) (hs e.1)
    obtain ⟨xv, d2, c2⟩ := typ_carried (R := R) (enc := enc) (dec := dec) (car := car) hv hct (by omega) (hs e.2)
    have w1 := wireTypeNum_lt k false
    have w2 := wireTypeNum_lt t false
    have hp : Parses (DecPart R dec k' t') (entryEnc enc k t e) [(false, xk), (true, xv)] := by
      rw [entryEnc, partTag (by omega) w1, partTag (by omega) w2]
      rw [show ([BitVec.ofNat 8 (1 * 8 + k.wireTypeNum false)] ++ encTyp enc k e.1 ++ [BitVec.ofNat 8 (2 * 8 + t.wireTypeNum false)] ++ encTyp enc t e.2) =
        (BitVec.ofNat 8 (1 * 8 + k.wireTypeNum false) :: encTyp enc k e.1) ++ ((BitVec.ofNat 8 (2 * 8 + t.wireTypeNum false) :: encTyp enc t e.2) ++ []) from by simp]
      refine .cons ⟨_, _, rfl, Or.inl ⟨?_, rfl, d1⟩⟩ (.cons ⟨_, _, rfl, Or.inr ⟨?_, rfl, d2⟩⟩ .nil)
      · rw [BitVec.toNat_ofNat]; omega
      · rw [BitVec.toNat_ofNat]; omega
    exact ⟨_, ⟨k', t', _, _, e2, hd, hp, rfl⟩, k, t, k', t', e, (xk, xv), ht, e2, rfl, rfl, ek W R car _ _ hk c1, c2⟩
  · have hA' := fieldsAgree_other hA hg
    have hm' : a'.kind ≠ .map := mt (fieldsAgree_map hA).mpr hg
    have hpk' : a'.packs = false := by rw [← hA'.1]; exact hpk
    have hl' : (encTyp enc a.field.typ x).length < 2 ^ 32 := by
      revert hl hg
      cases a.kind <;> simp [hpk]
    obtain ⟨x', h1, h2⟩ := typ_carried (R := R) (enc := enc) (dec := dec) (car := car) hx hA'.2 hl' (hs x)
    refine ⟨x', ?_, ?_⟩
    · revert hg hm'
      cases a.kind <;> cases a'.kind <;> simp [hpk, hpk', h1]
    · unfold ItemCarried
      revert hg
      cases a.kind <;> simp [hpk, h2]
  all_goals
    obtain ⟨hp', hc'⟩ := fieldsAgree_other hA (by rw [hg]; simp)
    rw [hpk] at hp'
    have hg' := (packs_isPacked hp'.symm).2
    have hw := convertible_wire hc'
    simp only [hg, hpk, if_true] at hl
    simp only [hg, hpk, hg', ← hp', if_true, ItemCarried]
    have hd := delimited_ok hl
  · have f1 : a.field.typ.isFixedSize = true := by simp [FieldType.isFixedSize, h1]
    have f2 : a'.field.typ.isFixedSize = true := by simp [FieldType.isFixedSize, hw, h1]
    simp only [f1, f2, if_true, hw, h1]
    refine ⟨_, ⟨_, hd, rfl⟩, Or.inl ⟨p, _, rfl, rfl, ?_⟩⟩
    rw [take_whole (k := 8) (by omega), pfElems_flat (k := 8) (by omega)]
  · have f1 : a.field.typ.isFixedSize = true := by simp [FieldType.isFixedSize, h1]
    have f2 : a'.field.typ.isFixedSize = true := by simp [FieldType.isFixedSize, hw, h1]
    simp only [f1, f2, if_true, hw, h1]
    refine ⟨_, ⟨_, hd, rfl⟩, Or.inr ⟨p, _, rfl, rfl, ?_⟩⟩
    rw [take_whole (k := 4) (by omega), pfElems_flat (k := 4) (by omega)]
  · have f2 : a'.field.typ.isFixedSize = false := by rw [← h1]; simp [FieldType.isFixedSize, hw]
    simp only [h1, f2, Bool.false_eq_true, if_false]
    have := Delimited.length hd
    obtain ⟨l', p1, p2⟩ := parses_carried (R := R) (enc := enc) (dec := dec) (car := car) hc' hs l hx (by omega)
    exact ⟨_, ⟨_, hd, l', p1, rfl⟩, l, l', rfl, rfl, p2⟩

/-! ## Messages -/

/-- What becomes of a record of the writer. -/
def Translated (R : Ctx) (car : MessageIndex → MessageIndex → RVal → RVal → Prop) (m' : Message) (it : Item) (u : Option Item) : Prop :=
  (u = Option.none ∧ ∀ a' ∈ arms R.cfg m', a'.field.number ≠ it.1.field.number) ∨
  ∃ a' x', u = Option.some (a', x') ∧ a' ∈ arms R.cfg m' ∧ a'.field.number = it.1.field.number ∧ FieldsAgree P it.1 a' ∧ ItemCarried R car it.1 a' it.2 x'

theorem parses_forall {U V : Type} {Rec : Bytes → U → Prop} {enc : V → Bytes} {T : V → U → Prop} :
    ∀ l : List V, (∀ v ∈ l, ∃ u, Rec (enc v) u ∧ T v u) → ∃ us, Parses Rec (l.flatMap enc) us ∧ List.Forall₂ T l us
  | [], _ => ⟨[], .nil, .nil⟩
  | v :: l, h => by
    obtain ⟨u, h1, h2⟩ := h v (List.mem_cons_self ..)
    obtain ⟨us, h3, h4⟩ := parses_forall l (fun w hw => h w (List.mem_cons_of_mem _ hw))
    exact ⟨u :: us, .cons h1 h3, .cons h2 h4⟩

theorem fieldTag_div8 (f : Field) : fieldTag f / 8 = f.number.toNat := by
  have := wireTypeNum_lt f.typ f.isPacked
  unfold fieldTag Spec.tag
  omega

theorem isPacked_packs {a : Arm} (h : a.field.isPacked = true → a.kind = .arrayLike) : a.field.isPacked = a.packs := by
  unfold Arm.packs
  cases hp : a.field.isPacked with
  | false => rfl
  | true => rw [h hp]; rfl

theorem agree_tag {a a' : Arm} (hA : FieldsAgree P a a') (hn : a'.field.number = a.field.number)
    (hp : a.field.isPacked = true → a.kind = .arrayLike) (hp' : a'.field.isPacked = true → a'.kind = .arrayLike) : fieldTag a'.field = fieldTag a.field := by
  unfold fieldTag
  rw [hn]
  congr 1
  unfold FieldType.wireTypeNum
  rw [isPacked_packs hp, isPacked_packs hp']
  by_cases hk : a.kind = .map
  · have hk' := (fieldsAgree_map hA).mp hk
    simp only [FieldsAgree, hk, hk'] at hA
    obtain ⟨k, t, k', t', e1, e2, _, _⟩ := hA
    simp [Arm.packs, hk, hk', e1, e2, FieldType.wireTypeNumNonPacked]
  · obtain ⟨h1, h2⟩ := fieldsAgree_other hA hk
    rw [h1, convertible_wire h2]

theorem arm_boxed {cfg : Config} {m : Message} (hok : MessageOk cfg m) {a : Arm} (ha : a ∈ arms cfg m) (hb : a.field.boxed = true) : a.kind = .singular := by
  obtain ⟨mem, h1, h2⟩ := mem_arms.mp ha
  cases mem with
  | oneof fs =>
    simp only [memberArms, List.mem_map] at h2
    obtain ⟨⟨f, i⟩, _, he⟩ := h2
    rw [← he]
    rfl
  | field f =>
    simp only [memberArms, List.mem_singleton] at h2
    have := (hok.members _ (List.mem_of_getElem? h1) : FieldOk f).boxed
    rw [h2] at hb ⊢
    have ho := this hb
    simp only [Arm.kind_none]
    revert ho
    cases f.frequency <;> decide

theorem item_record {m m' : Message} {i i' : MessageIndex} (hP : P i i') (hm : W.D.getMessage i = Option.some m) (hm' : R.D.getMessage i' = Option.some m')
    (hW : SchemaOk W) (hR : SchemaOk R) (hV : Versions W R P) (hpW : PacksRepeated W) (hpR : PacksRepeated R)
    {subT : MessageIndex → RVal → Prop} {enc : MessageIndex → RVal → Bytes} {dec : MessageIndex → Bytes → RVal → Prop}
    {car : MessageIndex → MessageIndex → RVal → RVal → Prop} {it : Item} (ha : it.1 ∈ arms W.cfg m) (h : ItemTyped W subT it.1 it.2)
    (hl : (itemEnc enc it).length < 2 ^ 32)
    (hs : ∀ x i i', P i i' → subT i x → (enc i x).length < 2 ^ 32 → ∃ x', dec i' (enc i x) x' ∧ car i i' x x') :
    ∃ u, Record R dec m' (itemEnc enc it) u ∧ Translated (P := P) R car m' it u := by
  have ht := fieldTag_lt32 (hW i m hm) ha
  have hv : IsVarint (varint (fieldTag it.1.field)) := IsVarint.of_canonical (by omega)
  rw [itemEnc, List.length_append] at hl
  by_cases hk : ∃ a' ∈ arms R.cfg m', a'.field.number = it.1.field.number
  · obtain ⟨a', ha', hn⟩ := hk
    have hA := hV.fields i i' m m' hP hm hm' it.1 ha a' ha' hn.symm
    obtain ⟨x', h1, h2⟩ := item_known (R := R) (enc := enc) (dec := dec) (car := car) h (arm_boxed (hR i' m' hm') ha') hA (by omega) hs
    refine ⟨Option.some (a', x'), ⟨_, _, hv, rfl, Or.inl ⟨a', ha', x', ?_, h1, rfl⟩⟩, Or.inr ⟨a', x', rfl, ha', hn, hA, h2⟩⟩
    rw [varintVal_varint, Nat.mod_eq_of_lt ht]
    exact agree_tag hA hn (hpW i m hm it.1 ha) (hpR i' m' hm' a' ha')
  · have hk' : ∀ a' ∈ arms R.cfg m', a'.field.number ≠ it.1.field.number := fun a' ha' hn => hk ⟨a', ha', hn⟩
    refine ⟨Option.none, ⟨_, _, hv, rfl, Or.inr ⟨?_, ?_, rfl⟩⟩, Or.inl ⟨rfl, hk'⟩⟩
    · intro a' ha' he
      rw [varintVal_varint, Nat.mod_eq_of_lt ht] at he
      have h1 := fieldTag_div8 a'.field
      have h2 := fieldTag_div8 it.1.field
      have n1 := arm_number (hR i' m' hm') ha'
      have n2 := arm_number (hW i m hm) ha
      rw [he] at h1
      exact hk' a' ha' (by omega)
    · rw [varintVal_varint]
      exact item_payload h (hpW i m hm it.1 ha) (by omega)

theorem flatMap_one {α β : Type} {g : α × Nat → List β} : ∀ {l : List α} {s j : Nat} {x : α}, l[j]? = Option.some x →
    (∀ p ∈ l.zipIdx s, p.2 ≠ s + j → g p = []) → (l.zipIdx s).flatMap g = g (x, s + j)
  | [], s, j, x, hx, _ => by simp at hx
  | y :: l, s, 0, x, hx, h => by
    simp only [List.getElem?_cons_zero, Option.some.injEq] at hx
    subst hx
    rw [List.zipIdx_cons, List.flatMap_cons]
    have : (l.zipIdx (s + 1)).flatMap g = [] := by
      rw [List.flatMap_eq_nil_iff]
      intro p hp
      have hle := (List.mem_zipIdx hp).1
      exact h p (by rw [List.zipIdx_cons]; exact List.mem_cons_of_mem _ hp) (by omega)
    rw [this, List.append_nil, Nat.add_zero]
  | y :: l, s, j + 1, x, hx, h => by
    rw [List.getElem?_cons_succ] at hx
    rw [List.zipIdx_cons, List.flatMap_cons, h (y, s) (by rw [List.zipIdx_cons]; exact List.mem_cons_self ..) (by simp), List.nil_append,
      flatMap_one hx (fun p hp hne => h p (by rw [List.zipIdx_cons]; exact List.mem_cons_of_mem _ hp) (by omega))]
    rw [show s + (j + 1) = s + 1 + j from by omega]

/-- The records with the number of a field are those of the member the field belongs to. -/
theorem msgItems_number {m : Message} (hok : MessageOk W.cfg m) {slots : List RVal} {j : Nat} {mem : Member} {v : RVal}
    (hj : (members W.cfg m)[j]? = Option.some mem) (hv : slots[j]? = Option.some v) {a : Arm} (ha : a ∈ arms W.cfg m) (hs : a.slot = j) :
    (msgItems W m slots).filter (fun it => it.1.field.number == a.field.number) = (memberItems W j mem v).filter (fun it => it.1.field.number == a.field.number) := by
  unfold msgItems
  rw [List.filter_flatMap]
  have hz : ((members W.cfg m).zip slots)[j]? = Option.some (mem, v) := by
    rw [List.getElem?_zip_eq_some]; exact ⟨hj, hv⟩
  have := flatMap_one (s := 0) (g := fun x : (Member × RVal) × Nat => (memberItems W x.2 x.1.1 x.1.2).filter (fun it => it.1.field.number == a.field.number)) hz ?_
  · rw [Nat.zero_add] at this
    exact this
  · intro p hp hne
    obtain ⟨⟨mem0, v0⟩, j0⟩ := p
    rw [List.filter_eq_nil_iff]
    intro it hit heq
    obtain ⟨hm1, hs1⟩ := memberItems_arm (Q := fun _ _ => True) (sub := fun _ _ => True) hit
    have hp' := (List.mem_zipIdx hp).2.2
    simp only [Nat.sub_zero] at hp'
    have hz0 : ((members W.cfg m).zip slots)[j0]? = Option.some (mem0, v0) := by
      rw [hp']; exact List.getElem?_eq_getElem _
    rw [List.getElem?_zip_eq_some] at hz0
    have hin : it.1 ∈ arms W.cfg m := mem_arms.mpr ⟨mem0, by rw [hs1]; exact hz0.1, by rw [hs1]; exact hm1⟩
    have := nodup_map_inj hok.distinct hin ha (by simpa using heq)
    rw [this] at hs1
    simp only [Nat.zero_add] at hne
    exact hne (hs1.symm.trans hs)

/-- What the records of a field hold. -/
def itemValues (W : Ctx) (a : Arm) (v : RVal) : List RVal :=
  match a.kind with
  | .map => (match v with
    | .map l => l.map (fun e => RVal.map [e])
    | _ => [])
  | _ => if a.packs then (match v with
      | .vec l => if l.isEmpty then [] else [v]
      | .pf32 p => if (pfElems p).isEmpty then [] else [v]
      | .pf64 p => if (pfElems p).isEmpty then [] else [v]
      | _ => [])
    else sentValues W a v

theorem flatMap_len {α : Type} {g : α → Bytes} {l : List α} {x : α} (h : x ∈ l) : (g x).length ≤ (l.flatMap g).length := by
  induction l with
  | nil => cases h
  | cons y l ih =>
    rw [List.flatMap_cons, List.length_append]
    rcases List.mem_cons.mp h with rfl | h
    · omega
    · have := ih h; omega

/-- The records of a field. -/
theorem member_items {m : Message} (hok : MessageOk W.cfg m) {Q : Field → RVal → Prop} {subT : MessageIndex → RVal → Prop} {j : Nat} {mem : Member} {v : RVal}
    (hj : (members W.cfg m)[j]? = Option.some mem) (hv : MemberTyped W Q subT mem v) {a : Arm} (ha : a ∈ arms W.cfg m) (hs : a.slot = j) :
    (memberItems W j mem v).filter (fun it => it.1.field.number == a.field.number) =
    (itemValues W a v).map (fun x => (a, x)) := by
  unfold itemValues
  obtain ⟨mem', h1, h2⟩ := mem_arms.mp ha
  rw [hs, hj] at h1
  cases h1
  rw [hs] at h2
  cases mem with
  | field f =>
    simp only [memberArms, List.mem_singleton] at h2
    subst h2
    rw [List.filter_eq_self.mpr]
    · simp only [memberItems, Arm.kind_none, Arm.packs_none, sentValues]
      cases hg : f.frequency.generated
      · cases hp : f.isPacked <;> cases v <;> rfl
      · cases hp : f.isPacked
        · cases v <;> rfl
        · cases v <;> rfl
      · cases v <;> rfl
    · intro it hit
      have := (memberItems_arm (Q := fun _ _ => True) (sub := fun _ _ => True) hit).1
      simp only [memberArms, List.mem_singleton] at this
      rw [this]
      simp
  | oneof fs =>
    simp only [memberArms, List.mem_map] at h2
    obtain ⟨⟨f, i⟩, hfi, rfl⟩ := h2
    have hk : (Arm.mk j f (Option.some i)).kind = .singular := rfl
    have hp : (Arm.mk j f (Option.some i)).packs = false := by simp [Arm.packs, hk]
    simp only [hk, hp, Bool.false_eq_true, if_false, sentValues]
    rcases hv with rfl | ⟨i0, f0, y, hf0, rfl, _⟩
    · simp [memberItems]
    · simp only [memberItems, hf0]
      have hfi' : fs[i]? = Option.some f := by simpa using List.mem_zipIdx_iff_getElem?.mp hfi
      by_cases he : i0 = i
      · subst he
        rw [hf0] at hfi'
        cases hfi'
        simp
      · rw [if_neg he, List.map_nil, List.filter_eq_nil_iff]
        intro it hit hn
        simp only [List.mem_singleton] at hit
        subst hit
        have hin : (Arm.mk j f0 (Option.some i0)) ∈ arms W.cfg m := by
          refine mem_arms.mpr ⟨_, hj, ?_⟩
          simp only [memberArms, List.mem_map]
          exact ⟨(f0, i0), by rw [List.mem_zipIdx_iff_getElem?]; simpa using hf0, rfl⟩
        have := nodup_map_inj hok.distinct hin ha (by simpa using hn)
        simp only [Arm.mk.injEq, Option.some.injEq] at this
        exact he this.2.2

/-- What the records of one field of the reader are, in terms of the records of the writer. -/
theorem filter_field {car : MessageIndex → MessageIndex → RVal → RVal → Prop} {m' : Message} (hok : MessageOk R.cfg m') {a0 : Arm} (h0 : a0 ∈ arms R.cfg m') {k : Nat}
    (hk : ∀ a' ∈ arms R.cfg m', a'.slot = k ↔ a' = a0) {items : List Item} {us : List (Option Item)}
    (h : List.Forall₂ (Translated (P := P) R car m') items us) :
    List.Forall₂ (fun it u => u.1 = a0 ∧ FieldsAgree P it.1 a0 ∧ ItemCarried R car it.1 a0 it.2 u.2)
      (items.filter (fun it => it.1.field.number == a0.field.number)) ((us.filterMap id).filter (fun u => u.1.slot == k)) := by
  induction h with
  | nil => exact .nil
  | @cons it u items us h1 h2 ih =>
    rcases h1 with ⟨rfl, hn⟩ | ⟨a', x', rfl, ha', hn, hA, hc⟩
    · rw [List.filterMap_cons_none rfl, List.filter_cons_of_neg]
      · exact ih
      · have := hn a0 h0
        simpa using fun he => this he.symm
    · rw [List.filterMap_cons_some (f := id) (a := Option.some (a', x')) (b := (a', x')) rfl]
      by_cases he : a' = a0
      · subst he
        rw [List.filter_cons_of_pos (by simpa using hn.symm), List.filter_cons_of_pos (by simpa using (hk a' ha').mpr rfl)]
        exact .cons ⟨rfl, hA, hc⟩ ih
      · rw [List.filter_cons_of_neg, List.filter_cons_of_neg]
        · exact ih
        · simpa using mt (hk a' ha').mp he
        · intro hn'
          exact he (nodup_map_inj hok.distinct ha' h0 (by rw [hn]; simpa using hn'))

theorem forall2_arm {α : Type} {T : α → RVal → Prop} {a0 : Arm} {l : List α} {its : List Item}
    (h : List.Forall₂ (fun it (u : Item) => u.1 = a0 ∧ T it u.2) l its) : ∃ xs : List RVal, its = xs.map (fun x => (a0, x)) ∧ List.Forall₂ T l xs := by
  induction h with
  | nil => exact ⟨[], rfl, .nil⟩
  | @cons it u l its h1 h2 ih =>
    obtain ⟨xs, rfl, hx⟩ := ih
    obtain ⟨b, y⟩ := u
    obtain ⟨rfl, h1⟩ := h1
    exact ⟨y :: xs, rfl, .cons h1 hx⟩

theorem memberAfter_received {k : Nat} {f : Field} (hb : f.boxed = true → f.frequency.isOptional = true) {d : RVal}
    (hd : f.frequency.generated = .arrayLike → d = .vec []) (hm : f.frequency.generated ≠ .map)
    (hp : (Arm.mk k f Option.none).packs = false) (xs : List RVal) : memberAfter d (xs.map (fun x => (⟨k, f, Option.none⟩, x))) = received f d xs := by
  unfold memberAfter received
  rw [List.getLast?_map]
  cases hl : xs.getLast? with
  | none =>
    have : xs = [] := List.getLast?_eq_none_iff.mp hl
    subst this
    cases hg : f.frequency.generated <;> simp only [Option.map_none]
    · exact hd hg
  | some x =>
    simp only [Option.map_some]
    cases hbx : f.boxed with
    | true =>
      have ho := hb hbx
      have hg : f.frequency.generated = .singular := by revert ho; cases f.frequency <;> decide
      simp [hg, ho]
    | false =>
      simp only [Bool.false_eq_true, if_false]
      cases hg : f.frequency.generated <;> simp only
      · have hpk : f.isPacked = false := by simpa [Arm.packs_none, hg] using hp
        rw [hpk, hd hg]
        simp [List.map_map, Function.comp_def]
      · exact absurd hg hm

theorem foldl_insertKV : ∀ (l acc : List (RVal × RVal)), (acc ++ l).Pairwise (fun a b => keyEq a.1 b.1 = false) →
    l.foldl (fun acc e => insertKV e.1 e.2 acc) acc = acc ++ l
  | [], acc, _ => by simp
  | e :: l, acc, h => by
    rw [List.foldl_cons, insertKV_new, foldl_insertKV l]
    · simp
    · simpa using h
    · intro x hx
      rw [List.pairwise_append] at h
      exact h.2.2 x hx e (List.mem_cons_self ..)

theorem memberAfter_map {k : Nat} {f : Field} (hb : f.boxed = false) (hg : f.frequency.generated = .map) (l : List (RVal × RVal))
    (h : l.Pairwise (fun a b => keyEq a.1 b.1 = false)) :
    memberAfter (.map []) ((l.map (fun e => RVal.map [e])).map (fun x => (⟨k, f, Option.none⟩, x))) = .map l := by
  unfold memberAfter
  rw [List.getLast?_map]
  cases hl : (l.map (fun e => RVal.map [e])).getLast? with
  | none =>
    have : l = [] := by simpa using hl
    subst this; rfl
  | some x =>
    simp only [Option.map_some, hb, Bool.false_eq_true, if_false, hg]
    rw [List.foldl_map, List.foldl_map]
    have := foldl_insertKV l [] (by simpa using h)
    rw [List.nil_append] at this
    exact congrArg RVal.map this

theorem entries_carried {car : MessageIndex → MessageIndex → RVal → RVal → Prop} {a a0 : Arm} (hk : a.kind = .map) {k t k' t' : FieldType}
    (ht : a.field.typ = .map k t) (ht' : a0.field.typ = .map k' t') : ∀ (l : List (RVal × RVal)) (xs : List RVal),
    List.Forall₂ (fun e x => ItemCarried R car a a0 (.map [e]) x) l xs → ∃ l' : List (RVal × RVal), xs = l'.map (fun e => RVal.map [e]) ∧
      List.Forall₂ (fun e e' => e'.1 = e.1 ∧ Carries R car t t' e.2 e'.2) l l'
  | [], _, h => by cases h; exact ⟨[], rfl, .nil⟩
  | e :: l, _, h => by
    cases h with
    | cons h1 h2 =>
      obtain ⟨l', rfl, h3⟩ := entries_carried hk ht ht' l _ h2
      simp only [ItemCarried, hk] at h1
      obtain ⟨_, _, _, _, e0, e', e1, e2, e3, e4, e5, e6⟩ := h1
      rw [ht] at e1; cases e1
      rw [ht'] at e2; cases e2
      cases e3
      exact ⟨e' :: l', by rw [e4]; rfl, .cons ⟨e5, e6⟩ h3⟩

theorem keys_same {T : RVal × RVal → RVal × RVal → Prop} {l l' : List (RVal × RVal)} (h : List.Forall₂ (fun e e' => e'.1 = e.1 ∧ T e e') l l') :
    l'.map (·.1) = l.map (·.1) := by
  induction h with
  | nil => rfl
  | cons h1 _ ih => rw [List.map_cons, List.map_cons, ih, h1.1]

theorem arm_field {cfg : Config} {m : Message} {a : Arm} (ha : a ∈ arms cfg m) {mem : Member} (hm : (members cfg m)[a.slot]? = Option.some mem)
    (hc : a.kind ≠ .singular) : mem = .field a.field ∧ a = ⟨a.slot, a.field, Option.none⟩ := by
  obtain ⟨mem', h1, h2⟩ := mem_arms.mp ha
  rw [hm] at h1
  cases h1
  cases mem with
  | oneof fs =>
    simp only [memberArms, List.mem_map] at h2
    obtain ⟨⟨f, i⟩, _, he⟩ := h2
    rw [← he] at hc
    exact absurd rfl hc
  | field f =>
    simp only [memberArms, List.mem_singleton] at h2
    have : a.field = f := by rw [h2]
    rw [this]
    exact ⟨rfl, h2⟩

/-- One field of the reader that the writer has too. -/
theorem field_carried {m m' : Message} (hok : MessageOk W.cfg m) (hok' : MessageOk R.cfg m') {Q : Field → RVal → Prop} {subT : MessageIndex → RVal → Prop}
    {car : MessageIndex → MessageIndex → RVal → RVal → Prop} {mem : Member} {v : RVal} {a : Arm}
    (hj : (members W.cfg m)[a.slot]? = Option.some mem) (hv : MemberTyped W Q subT mem v) (ha : a ∈ arms W.cfg m)
    {k : Nat} {f' : Field} (hk : (members R.cfg m')[k]? = Option.some (.field f')) (hA : FieldsAgree P a ⟨k, f', Option.none⟩) (custom : Bool) {its : List Item}
    (h : List.Forall₂ (fun (it u : Item) => u.1 = ⟨k, f', Option.none⟩ ∧ FieldsAgree P it.1 ⟨k, f', Option.none⟩ ∧ ItemCarried R car it.1 ⟨k, f', Option.none⟩ it.2 u.2)
      ((memberItems W a.slot mem v).filter (fun it => it.1.field.number == a.field.number)) its) :
    FieldCarried W R car a f' (slotDefault R custom (.field f')) v (memberAfter (slotDefault R custom (.field f')) its) := by
  have hfo : FieldOk f' := hok'.members _ (List.mem_of_getElem? hk)
  have hbx := hfo.boxed
  rw [member_items hok hj hv ha rfl, List.forall₂_map_left_iff] at h
  obtain ⟨xs, rfl, hfa⟩ := forall2_arm (T := fun x y => FieldsAgree P a ⟨k, f', Option.none⟩ ∧ ItemCarried R car a ⟨k, f', Option.none⟩ x y) h
  clear h
  have h : List.Forall₂ (fun x y => ItemCarried R car a ⟨k, f', Option.none⟩ x y) (itemValues W a v) xs := List.Forall₂.imp (fun _ _ hxy => And.right hxy) hfa
  clear hfa
  unfold itemValues at h
  unfold FieldCarried
  have hg0 : (Arm.mk k f' Option.none).kind = f'.frequency.generated := rfl
  by_cases hm : a.kind = .map
  · have hm' := (fieldsAgree_map hA).mp hm
    have hA' := hA
    simp only [FieldsAgree, hm, hm'] at hA'
    obtain ⟨k1, t1, k2, t2, e1, e2, _, _⟩ := hA'
    obtain ⟨rfl, hae⟩ := arm_field ha hj (by rw [hm]; simp)
    have hgf : a.field.frequency.generated = .map := by rw [hae] at hm; exact hm
    simp only [MemberTyped, FieldTyped, hgf] at hv
    obtain ⟨k3, t3, l, e3, rfl, hl, hpw⟩ := hv
    simp only [hm, List.forall₂_map_left_iff] at h ⊢
    obtain ⟨l', rfl, hl'⟩ := entries_carried (R := R) hm e1 e2 l xs h
    refine ⟨k1, t1, k2, t2, l, l', e1, e2, rfl, ?_, hl'⟩
    rw [hg0] at hm'
    have hnb : f'.boxed = false := by
      cases hq : f'.boxed with
      | false => rfl
      | true => have := hbx hq; revert this hm'; cases f'.frequency <;> decide
    have hd : slotDefault R custom (.field f') = .map [] := by simp [slotDefault, hnb, hm']
    rw [hd]
    refine memberAfter_map hnb hm' l' ?_
    have h1 := (List.pairwise_map (f := fun e : RVal × RVal => e.1) (R := fun a b => keyEq a b = false) (l := l')).mp
    refine h1 ?_
    rw [keys_same hl', List.pairwise_map]
    exact hpw
  · obtain ⟨hp1, hc⟩ := fieldsAgree_other hA hm
    have hm' : f'.frequency.generated ≠ .map := by rw [← hg0]; exact mt (fieldsAgree_map hA).mpr hm
    cases hpk : a.packs with
    | false =>
      have hx : List.Forall₂ (Carries R car a.field.typ f'.typ) (sentValues W a v) xs := by
        revert h hm
        unfold ItemCarried
        cases a.kind <;> simp [hpk]
      have : ∃ xs', List.Forall₂ (Carries R car a.field.typ f'.typ) (sentValues W a v) xs' ∧
          memberAfter (slotDefault R custom (.field f')) (xs.map fun x => ((⟨k, f', Option.none⟩ : Arm), x)) = received f' (slotDefault R custom (.field f')) xs' := by
        refine ⟨xs, hx, memberAfter_received hbx ?_ hm' (by rw [← hp1]; exact hpk) xs⟩
        intro hg
        have hnp : f'.isPacked = false := by
          rw [hpk] at hp1
          simpa [Arm.packs_none, hg] using hp1.symm
        have hnb : f'.boxed = false := by
          cases hq : f'.boxed with
          | false => rfl
          | true => have := hbx hq; revert this hg; cases f'.frequency <;> decide
        simp [slotDefault, hnb, hg, isPackedFixed, hnp]
      revert hm
      cases a.kind <;> simp only [ne_eq, reduceCtorEq, not_false_eq_true, not_true_eq_false, false_implies, forall_const, Bool.false_eq_true, if_false] <;> exact this
    | true =>
      rw [hpk] at hp1
      obtain ⟨q1, q2⟩ := packs_isPacked hpk
      obtain ⟨q3, q4⟩ := packs_isPacked hp1.symm
      rw [hg0] at q4
      obtain ⟨rfl, hae⟩ := arm_field ha hj (by rw [q2]; simp)
      have hgf : a.field.frequency.generated = .arrayLike := by rw [hae] at q2; exact q2
      have hnb : f'.boxed = false := by
        cases hq : f'.boxed with
        | false => rfl
        | true => have := hbx hq; revert this q4; cases f'.frequency <;> decide
      have hw := convertible_wire hc
      have hfx : f'.typ.isFixedSize = a.field.typ.isFixedSize := by simp [FieldType.isFixedSize, hw]
      simp only [q2, hpk, if_true] at h ⊢
      simp only [MemberTyped, FieldTyped, hgf, isPackedFixed, q1, Bool.true_and] at hv
      have hone : ∀ x, memberAfter (slotDefault R custom (.field f')) [((⟨k, f', Option.none⟩ : Arm), x)] = x := by
        intro x
        have hq : f'.isPacked = true := q3
        simp [memberAfter, hnb, q4, hq]
      have hnil : ∀ d, memberAfter d [] = d := fun d => rfl
      have hdef : ∀ n (c : Bool), pfElems (k := n) (if c = true then .owned [] else .noDataYet) = [] := by intro n c; cases c <;> rfl
      have hq3 : f'.isPacked = true := q3
      cases hf : a.field.typ.isFixedSize with
      | true =>
        rw [hf] at hv hfx
        simp only [if_true] at hv ⊢
        by_cases h1 : a.field.typ.wireTypeNumNonPacked = 1
        · rw [if_pos h1] at hv
          obtain ⟨p, rfl, _⟩ := hv
          simp only at h
          left
          cases hE : (pfElems p).isEmpty with
          | true =>
            rw [hE] at h
            simp only [if_true] at h
            cases h
            refine ⟨p, if custom = true then .owned [] else .noDataYet, rfl, ?_, by rw [hdef, List.isEmpty_iff.mp hE]⟩
            simp [hnil, slotDefault, hnb, q4, isPackedFixed, hq3, hfx, hw, h1]
          | false =>
            rw [hE] at h
            simp only [Bool.false_eq_true, if_false] at h
            cases h with
            | cons h2 h3 =>
              cases h3
              simp only [ItemCarried, q2, hpk, hf, if_true] at h2
              rcases h2 with ⟨p0, p', e1, e2, e3⟩ | ⟨p0, p', e1, _, _⟩
              · cases e1
                exact ⟨p, p', rfl, by rw [List.map_cons, List.map_nil, hone, e2], e3⟩
              · cases e1
        · rw [if_neg h1] at hv
          obtain ⟨p, rfl, _⟩ := hv
          simp only at h
          right
          cases hE : (pfElems p).isEmpty with
          | true =>
            rw [hE] at h
            simp only [if_true] at h
            cases h
            refine ⟨p, if custom = true then .owned [] else .noDataYet, rfl, ?_, by rw [hdef, List.isEmpty_iff.mp hE]⟩
            simp [hnil, slotDefault, hnb, q4, isPackedFixed, hq3, hfx, hw, h1]
          | false =>
            rw [hE] at h
            simp only [Bool.false_eq_true, if_false] at h
            cases h with
            | cons h2 h3 =>
              cases h3
              simp only [ItemCarried, q2, hpk, hf, if_true] at h2
              rcases h2 with ⟨p0, p', e1, _, _⟩ | ⟨p0, p', e1, e2, e3⟩
              · cases e1
              · cases e1
                exact ⟨p, p', rfl, by rw [List.map_cons, List.map_nil, hone, e2], e3⟩
      | false =>
        rw [hf] at hv hfx
        simp only [Bool.false_eq_true, if_false] at hv ⊢
        obtain ⟨l, rfl, _⟩ := hv
        simp only at h
        cases hE : l.isEmpty with
        | true =>
          rw [hE] at h
          simp only [if_true] at h
          cases h
          have := List.isEmpty_iff.mp hE
          subst this
          refine ⟨[], [], rfl, ?_, .nil⟩
          simp [hnil, slotDefault, hnb, q4, isPackedFixed, hfx]
        | false =>
          rw [hE] at h
          simp only [Bool.false_eq_true, if_false] at h
          cases h with
          | cons h2 h3 =>
            cases h3
            simp only [ItemCarried, q2, hpk, hf, if_true, Bool.false_eq_true, if_false] at h2
            obtain ⟨l0, l', e1, e2, e3⟩ := h2
            cases e1
            exact ⟨l, l', rfl, by rw [List.map_cons, List.map_nil, hone, e2], e3⟩

/-- **C93**, about what is written and denoted. -/
theorem msg_carried (hW : SchemaOk W) (hR : SchemaOk R) (hD : IsDefault R) (hV : Versions W R P) (hpW : PacksRepeated W) (hpR : PacksRepeated R)
    {Q : Field → RVal → Prop} : ∀ (n : Nat) (i i' : MessageIndex) (v : RVal), P i i' → WellTyped W Q n i v → (encMsg W n i v).length < 2 ^ 32 →
    ∃ v', DecMsg R n i' (encMsg W n i v) v' ∧ Carried W R n i i' v v'
  | 0, _, _, _, _, h, _ => h.elim
  | n + 1, i, i', v, hP, h, hl => by
    obtain ⟨m, slots, hm, rfl, hlen, htyp⟩ := h
    obtain ⟨m', hm'⟩ := hV.exist i i' hP
    have ih := msg_carried hW hR hD hV hpW hpR (Q := Q) n
    have he : encMsg W (n + 1) i (.struct slots) = (msgItems W m slots).flatMap (itemEnc (encMsg W n)) := by simp [encMsg, hm, RVal.slots]
    rw [he] at hl ⊢
    obtain ⟨us, hus, htr⟩ := parses_forall (Rec := Record R (DecMsg R n) m') (enc := itemEnc (encMsg W n)) (T := Translated (P := P) R (Carried W R n) m')
      (msgItems W m slots) (fun it hit => by
        obtain ⟨mem, w, h1, h2, h3, h4⟩ := mem_msgItems hit
        exact item_record hP hm hm' hW hR hV hpW hpR h4 (item_typed (htyp _ h2) h3) (Nat.lt_of_le_of_lt (flatMap_len hit) hl)
          (fun x j j' hj hx hlx => ih j j' x hj hx hlx))
    have hdl : (R.dflt i').slots.length = (members R.cfg m').length := by rw [hD i' m' hm']; simp [RVal.slots]
    have hslot : ∀ (j : Nat) (mem : Member), (members W.cfg m)[j]? = Option.some mem → ∃ w, slots[j]? = Option.some w ∧ MemberTyped W Q (WellTyped W Q n) mem w := by
      intro j mem hj
      have hjl := (List.getElem?_eq_some_iff.mp hj).1
      refine ⟨slots[j]'(by omega), List.getElem?_eq_getElem _, ?_⟩
      refine htyp (mem, slots[j]'(by omega)) ?_
      refine List.mem_of_getElem? (i := j) ?_
      rw [List.getElem?_zip_eq_some]
      exact ⟨hj, List.getElem?_eq_getElem _⟩
    refine ⟨.struct (slotsAfter (R.dflt i').slots us), ⟨m', hm', ?_⟩, m, m', slots, _, hm, hm', rfl, rfl, ?_, ?_⟩
    · cases hu : m'.isUnit with
      | false => exact ⟨_, ⟨us, hus, rfl⟩, rfl⟩
      | true =>
        rw [if_pos rfl]
        have hmem := isUnit_members (cfg := R.cfg) hu
        have : (R.dflt i').slots = [] := by rw [← List.length_eq_zero_iff, hdl, hmem]; rfl
        rw [this]
        have hs := hD i' m' hm'
        rw [hs] at this ⊢
        simp only [RVal.slots] at this
        rw [this]
        rfl
    · rw [slotsAfter, List.length_mapIdx, hdl]
    · intro k mem' hk
      refine ⟨_, slotsAfter_get (dflt_get hD hm' hk), ?_⟩
      have hok' := hR i' m' hm'
      have hok := hW i m hm
      cases mem' with
      | field f' =>
        have h0 : (Arm.mk k f' Option.none) ∈ arms R.cfg m' := mem_arms.mpr ⟨_, hk, by simp [memberArms]⟩
        have hkk : ∀ a' ∈ arms R.cfg m', a'.slot = k ↔ a' = ⟨k, f', Option.none⟩ := by
          intro a' ha'
          constructor
          · intro hs
            obtain ⟨mem, h1, h2⟩ := mem_arms.mp ha'
            rw [hs, hk] at h1
            cases h1
            rw [hs] at h2
            simpa [memberArms] using h2
          · rintro rfl; rfl
        have hf := filter_field hok' h0 hkk htr
        by_cases hex : ∃ a ∈ arms W.cfg m, a.field.number = f'.number
        · obtain ⟨a, ha, hn⟩ := hex
          obtain ⟨mem, h1, h2⟩ := mem_arms.mp ha
          obtain ⟨w, hw, hwt⟩ := hslot a.slot mem h1
          refine Or.inl ⟨a, ha, w, hn, hw, ?_⟩
          simp only at hf
          rw [← hn, msgItems_number hok h1 hw ha rfl] at hf
          exact field_carried hok hok' h1 hwt ha hk (hV.fields i i' m m' hP hm hm' a ha _ h0 hn) _ hf
        · have hno : ∀ a ∈ arms W.cfg m, a.field.number ≠ f'.number := fun a ha hn => hex ⟨a, ha, hn⟩
          refine Or.inr ⟨hno, ?_⟩
          have : (msgItems W m slots).filter (fun it => it.1.field.number == f'.number) = [] := by
            rw [List.filter_eq_nil_iff]
            intro it hit
            obtain ⟨_, _, _, _, _, h4⟩ := mem_msgItems hit
            simpa using hno _ h4
          simp only at hf
          rw [this] at hf
          generalize ((us.filterMap id).filter fun u => u.1.slot == k) = z at hf ⊢
          cases hf
          rfl
      | oneof fs' =>
        have hback : ∀ u ∈ (us.filterMap id).filter (fun u => u.1.slot == k), ∃ it ∈ msgItems W m slots, u.1.slot = k ∧ u.1 ∈ arms R.cfg m' ∧
            u.1.field.number = it.1.field.number ∧ FieldsAgree P it.1 u.1 ∧ ItemCarried R (Carried W R n) it.1 u.1 it.2 u.2 := by
          intro u hu
          simp only [List.mem_filter, List.mem_filterMap, id_eq, beq_iff_eq] at hu
          obtain ⟨⟨_, hu, rfl⟩, hs⟩ := hu
          obtain ⟨q, hq⟩ := List.mem_iff_getElem?.mp hu
          have hql := (List.getElem?_eq_some_iff.mp hq).1
          have hil := htr.length_eq
          obtain ⟨it, hit⟩ : ∃ it, (msgItems W m slots)[q]? = Option.some it := ⟨_, List.getElem?_eq_getElem (by omega)⟩
          have := List.Forall₂.get htr (i := q) (by omega) hql
          have e1 : (msgItems W m slots).get ⟨q, by omega⟩ = it := by
            have := List.getElem?_eq_some_iff.mp hit
            exact this.2
          have e2 : us.get ⟨q, hql⟩ = Option.some u := (List.getElem?_eq_some_iff.mp hq).2
          rw [e1, e2] at this
          rcases this with ⟨e3, _⟩ | ⟨a', x', e3, h1, h2, h3, h4⟩
          · cases e3
          · cases e3
            exact ⟨it, List.mem_of_getElem? hit, hs, h1, h2, h3, h4⟩
        have hkind : ∀ a' ∈ arms R.cfg m', a'.slot = k → a'.kind = .singular ∧ a'.packs = false ∧ ∃ i', a'.choice = Option.some i' ∧ fs'[i']? = Option.some a'.field := by
          intro a' ha' hs
          obtain ⟨mem, h1, h2⟩ := mem_arms.mp ha'
          rw [hs, hk] at h1
          cases h1
          simp only [memberArms, List.mem_map] at h2
          obtain ⟨⟨f, q⟩, hfq, he⟩ := h2
          rw [← he]
          exact ⟨rfl, by simp [Arm.packs, Arm.kind], q, rfl, by simpa using List.mem_zipIdx_iff_getElem?.mp hfq⟩
        cases hlast : ((us.filterMap id).filter fun u => u.1.slot == k).getLast? with
        | some u =>
          left
          obtain ⟨it, hit, hs, h1, h2, h3, h4⟩ := hback u (List.mem_of_getLast? hlast)
          obtain ⟨q1, q2, q, q3, q4⟩ := hkind _ h1 hs
          obtain ⟨mem, w, g1, g2, g3, g4⟩ := mem_msgItems hit
          have hkm : it.1.kind ≠ .map := by
            intro hq
            have := (fieldsAgree_map h3).mp hq
            rw [q1] at this; cases this
          obtain ⟨hpk, hcv⟩ := fieldsAgree_other h3 hkm
          rw [q2] at hpk
          obtain ⟨w', hw', hwt⟩ := hslot it.1.slot mem g1
          have hnum : it ∈ (msgItems W m slots).filter (fun it' => it'.1.field.number == it.1.field.number) := by
            rw [List.mem_filter]; exact ⟨hit, by simp⟩
          rw [msgItems_number hok g1 hw' g4 rfl, member_items hok g1 hwt g4 rfl] at hnum
          have hsent : it.2 ∈ sentValues W it.1 w' := by
            revert hnum hkm
            unfold itemValues
            cases it.1.kind <;> simp [hpk]
            all_goals (intro x hx e; rw [← e]; exact hx)
          refine ⟨it.1, g4, w', it.2, q, u.1.field, u.2, hw', hsent, q4, h2.symm, ?_, ?_⟩
          · revert h4 hkm
            unfold ItemCarried
            cases it.1.kind <;> simp [hpk]
          · unfold memberAfter
            rw [hlast]
            obtain ⟨u1, u2⟩ := u
            simp only at q3
            simp [q3]
        | none =>
          right
          have hnil : ((us.filterMap id).filter fun u => u.1.slot == k) = [] := List.getLast?_eq_none_iff.mp hlast
          rw [hnil]
          refine ⟨rfl, fun a ha f' hf' hn x hx => ?_⟩
          obtain ⟨q, hq⟩ := List.mem_iff_getElem?.mp hf'
          have h0 : (Arm.mk k f' (Option.some q)) ∈ arms R.cfg m' := by
            refine mem_arms.mpr ⟨_, hk, ?_⟩
            simp only [memberArms, List.mem_map]
            exact ⟨(f', q), by rw [List.mem_zipIdx_iff_getElem?]; simpa using hq, rfl⟩
          have hA := hV.fields i i' m m' hP hm hm' a ha _ h0 hn
          have hkm : a.kind ≠ .map := by
            intro hq
            have := (fieldsAgree_map hA).mp hq
            cases this
          obtain ⟨hpk, _⟩ := fieldsAgree_other hA hkm
          have hpk' : a.packs = false := by rw [hpk]; simp [Arm.packs, Arm.kind]
          obtain ⟨mem, g1, g2⟩ := mem_arms.mp ha
          obtain ⟨w', hw', hwt⟩ := hslot a.slot mem g1
          rw [hx] at hw'; cases hw'
          cases hsv : sentValues W a x with
          | nil => rfl
          | cons y ys =>
            exfalso
            have hin : (a, y) ∈ msgItems W m slots := by
              have : (a, y) ∈ (memberItems W a.slot mem x).filter (fun it => it.1.field.number == a.field.number) := by
                rw [member_items hok g1 hwt ha rfl]
                revert hkm
                unfold itemValues
                cases a.kind <;> simp [hpk', hsv]
              rw [← msgItems_number hok g1 hx ha rfl] at this
              exact (List.mem_filter.mp this).1
            obtain ⟨q', hq'⟩ := List.mem_iff_getElem?.mp hin
            have hql := (List.getElem?_eq_some_iff.mp hq').1
            have hil := htr.length_eq
            have := List.Forall₂.get htr (i := q') hql (by omega)
            have e1 : (msgItems W m slots).get ⟨q', hql⟩ = (a, y) := (List.getElem?_eq_some_iff.mp hq').2
            rw [e1] at this
            rcases this with ⟨_, hno⟩ | ⟨a', x', e3, h1, h2, h3, h4⟩
            · exact hno _ h0 hn.symm
            · have := nodup_map_inj hok'.distinct h1 h0 (by rw [h2]; exact hn)
              subst this
              have hmem : Option.some ((Arm.mk k f' (Option.some q)), x') ∈ us := by rw [← e3]; exact List.get_mem _ _
              have : ((Arm.mk k f' (Option.some q)), x') ∈ (us.filterMap id).filter fun u => u.1.slot == k := by
                simp only [List.mem_filter, List.mem_filterMap, id_eq, beq_iff_eq, and_true]
                exact ⟨_, hmem, rfl⟩
              rw [hnil] at this
              cases this

end QP.Gen
