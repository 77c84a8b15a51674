import Verif.Props.Decode
import Verif.Props.Messages
import Verif.Spec.Resolved
/-! Decoded values are values of the generated types. -/

set_option linter.unusedVariables false

namespace QP.Gen
open QP.Pbrs Spec BytesReader

variable {C : Ctx} {Q : Field → RVal → Prop}

theorem WellTyped.mono {n k : Nat} (h : n ≤ k) : ∀ idx v, WellTyped C Q n idx v → WellTyped C Q k idx v := by
  induction n generalizing k with
  | zero => intro _ _ h; exact h.elim
  | succ n ih =>
    obtain ⟨k, rfl⟩ : ∃ j, k = j + 1 := ⟨k - 1, by omega⟩
    rintro idx v ⟨m, slots, h1, h2, h3, h4⟩
    exact ⟨m, slots, h1, h2, h3, fun p hp => (h4 p hp).imp (ih (by omega)) (fun _ _ _ _ h => h)⟩

/-- Well typed at some depth. -/
def TypedSome (C : Ctx) (Q : Field → RVal → Prop) (idx : MessageIndex) (v : RVal) : Prop := ∃ n, WellTyped C Q n idx v

/-- One bound for a list. -/
theorem common_bound {α : Type} {P : Nat → α → Prop} (mono : ∀ n k x, n ≤ k → P n x → P k x) (l : List α)
    (h : ∀ x ∈ l, ∃ n, P n x) : ∃ n, ∀ x ∈ l, P n x := by
  induction l with
  | nil => exact ⟨0, by simp⟩
  | cons a l ih =>
    obtain ⟨n, hn⟩ := ih (fun x hx => h x (by simp [hx]))
    obtain ⟨k, hk⟩ := h a (by simp)
    refine ⟨max n k, fun x hx => ?_⟩
    rcases List.mem_cons.mp hx with rfl | hx
    · exact mono _ _ _ (Nat.le_max_right n k) hk
    · exact mono _ _ _ (Nat.le_max_left n k) (hn x hx)

theorem hasType_bound {t : FieldType} {v : RVal} (h : HasType C (TypedSome C Q) t v) :
    ∃ n, HasType C (WellTyped C Q n) t v := by
  cases t <;> first
    | exact h
    | exact ⟨0, h⟩

theorem hasType_mono {t : FieldType} {v : RVal} {n k : Nat} (hnk : n ≤ k) (h : HasType C (WellTyped C Q n) t v) :
    HasType C (WellTyped C Q k) t v := h.imp (WellTyped.mono hnk)

theorem memberTyped_bound {mem : Member} {v : RVal} (h : MemberTyped C Q (TypedSome C Q) mem v) :
    ∃ n, MemberTyped C Q (WellTyped C Q n) mem v := by
  cases mem with
  | oneof fs =>
    rcases h with h | ⟨i, f, x, h1, h2, h3⟩
    · exact ⟨0, Or.inl h⟩
    · obtain ⟨n, hn⟩ := hasType_bound h3
      exact ⟨n, Or.inr ⟨i, f, x, h1, h2, hn⟩⟩
  | field f =>
    simp only [MemberTyped, FieldTyped] at h ⊢
    cases hg : f.frequency.generated
    · simp only [hg] at h ⊢
      cases ho : f.frequency.isOptional
      · simp only [ho, Bool.false_eq_true, if_false] at h ⊢
        obtain ⟨n, hn⟩ := hasType_bound h.1
        exact ⟨n, hn, h.2⟩
      · simp only [ho, if_true] at h ⊢
        rcases h with h | ⟨x, h1, h2⟩
        · exact ⟨0, Or.inl h⟩
        · obtain ⟨n, hn⟩ := hasType_bound h2
          exact ⟨n, Or.inr ⟨x, h1, hn⟩⟩
    · simp only [hg] at h ⊢
      cases hp : isPackedFixed f
      · simp only [hp, Bool.false_eq_true, if_false] at h ⊢
        obtain ⟨l, h1, h2⟩ := h
        obtain ⟨n, hn⟩ := common_bound (P := fun n x => HasType C (WellTyped C Q n) f.typ x)
          (fun n k x hnk hx => hasType_mono hnk hx) l (fun x hx => hasType_bound (h2 x hx))
        exact ⟨n, l, h1, hn⟩
      · simp only [hp, if_true] at h ⊢
        exact ⟨0, h⟩
    · simp only [hg] at h ⊢
      obtain ⟨k, t, l, h1, h2, h3, h4⟩ := h
      obtain ⟨n, hn⟩ := common_bound (P := fun n (e : RVal × RVal) => HasType C (WellTyped C Q n) k e.1 ∧ HasType C (WellTyped C Q n) t e.2)
        (fun n k x hnk hx => ⟨hasType_mono hnk hx.1, hasType_mono hnk hx.2⟩) l (fun e he => by
          obtain ⟨n1, h1⟩ := hasType_bound (h3 e he).1
          obtain ⟨n2, h2⟩ := hasType_bound (h3 e he).2
          exact ⟨max n1 n2, hasType_mono (Nat.le_max_left _ _) h1, hasType_mono (Nat.le_max_right _ _) h2⟩)
      exact ⟨n, k, t, l, h1, h2, hn, h4⟩

/-- A struct of well-typed members is well typed. -/
theorem typedSome_struct {idx : MessageIndex} {m : Message} (hm : C.D.getMessage idx = Option.some m) {slots : List RVal}
    (hl : slots.length = (members C.cfg m).length)
    (h : ∀ p ∈ (members C.cfg m).zip slots, MemberTyped C Q (TypedSome C Q) p.1 p.2) : TypedSome C Q idx (.struct slots) := by
  obtain ⟨n, hn⟩ := common_bound (P := fun n (p : Member × RVal) => MemberTyped C Q (WellTyped C Q n) p.1 p.2)
    (fun n k x hnk hx => hx.imp (WellTyped.mono hnk) (fun _ _ _ _ h => h)) _ (fun p hp => memberTyped_bound (h p hp))
  exact ⟨n + 1, m, slots, hm, rfl, hl, hn⟩

/-! ### Defaults -/

/-- `Q` allows everything in fields without presence of this schema. -/
def Allows (C : Ctx) (Q : Field → RVal → Prop) : Prop :=
  ∀ idx m, C.D.getMessage idx = Option.some m → ∀ a ∈ arms C.cfg m, a.field.hasPresence = false → ∀ v, Q a.field v

theorem typDefault_typed {t : FieldType} (ht : TypOk C t) (hd : ∀ i, t = .message i → TypedSome C Q i (C.dflt i)) :
    HasType C (TypedSome C Q) t (typDefault C t) := by
  cases t <;> simp only [typDefault, HasType, TypOk] at ht ⊢
  case enum e =>
    cases hn : C.enumNums e with
    | nil => exact (ht hn).elim
    | cons a l => exact ⟨_, rfl, by simp⟩
  case message i => exact hd i rfl
  case stringCow => exact ⟨_, rfl, ⟨[], by simp, rfl⟩⟩
  case string_ => exact ⟨_, rfl, ⟨[], by simp, rfl⟩⟩
  all_goals exact ⟨_, rfl⟩

theorem member_arm {cfg : Config} {m : Message} {j : Nat} {f : Field} (h : (members cfg m)[j]? = Option.some (.field f)) :
    (⟨j, f, Option.none⟩ : Arm) ∈ arms cfg m := mem_arms.mpr ⟨_, h, by simp [memberArms]⟩

theorem slotDefault_typed (hr : Resolved C) (hS : SchemaOk C) (hQ : Allows C Q) {idx : MessageIndex} {m : Message}
    (hm : C.D.getMessage idx = Option.some m) {j : Nat} {mem : Member} (hj : (members C.cfg m)[j]? = Option.some mem)
    (custom : Bool) (hd : ∀ f i, mem = .field f → f.typ = .message i → slotDefault C custom mem = C.dflt i →
      TypedSome C Q i (C.dflt i)) :
    MemberTyped C Q (TypedSome C Q) mem (slotDefault C custom mem) := by
  cases mem with
  | oneof fs => exact Or.inl rfl
  | field f =>
    have harm := member_arm hj
    have hok : FieldOk f := (hS idx m hm).members (.field f) (List.mem_of_getElem? hj)
    obtain ⟨htyp, hconst⟩ := hr idx m hm _ harm
    have hq := hQ idx m hm _ harm
    simp only at htyp hconst hq
    simp only [MemberTyped, FieldTyped]
    cases hg : f.frequency.generated with
    | singular =>
      simp only
      have hbx : f.boxed = true → f.frequency.isOptional = true := hok.boxed
      cases ho : f.frequency.isOptional
      · have hb : f.boxed = false := by
          cases h : f.boxed
          · rfl
          · rw [hbx h] at ho; cases ho
        have hnm : f.typ.isMap = false := by rw [← hok.map]; exact (generated_singular hg).1
        have htyp' : TypOk C f.typ := by
          cases ht : f.typ <;> rw [ht] at htyp hnm <;> first | exact htyp | (simp [FieldType.isMap] at hnm)
        simp only [Bool.false_eq_true, if_false]
        refine ⟨?_, fun hp => hq hp _⟩
        have hdt : HasType C (TypedSome C Q) f.typ (typDefault C f.typ) := by
          cases ht : f.typ with
          | message i =>
            by_cases hcd : slotDefault C custom (.field f) = C.dflt i
            · exact hd f i rfl ht hcd
            · -- then the default is a custom constant, which has no message type
              exfalso
              apply hcd
              have hno : f.default = Option.none := by
                cases hdf : f.default with
                | none => rfl
                | some s =>
                  have := hconst s hdf
                  rw [ht] at this
                  exact this.elim
              simp [slotDefault, hb, ho, hg, fieldDefault, hno, ht, typDefault]
          | _ =>
            rw [ht] at htyp'
            exact typDefault_typed htyp' (by intro i h; cases h)
        have hs : slotDefault C custom (.field f) = if custom then fieldDefault C f else typDefault C f.typ := by
          simp [slotDefault, hb, ho, hg]
        rw [hs]
        cases custom
        · exact hdt
        · simp only [if_true, fieldDefault]
          cases hdf : f.default with
          | none => exact hdt
          | some s => exact (hconst s hdf).imp (fun _ _ h => h.elim)
      · simp only [if_true]
        left
        simp [slotDefault, ho, hg]
    | arrayLike =>
      have hb : f.boxed = false := by
        cases h : f.boxed
        · rfl
        · have := hok.boxed h; rw [(generated_array hg).2.2] at this; cases this
      simp only
      have hs : slotDefault C custom (.field f) = if isPackedFixed f then
          (if f.typ.wireTypeNumNonPacked = 1 then .pf64 (if custom then .owned [] else .noDataYet)
            else .pf32 (if custom then .owned [] else .noDataYet)) else .vec [] := by
        simp [slotDefault, hb, hg]
      rw [hs]
      by_cases hpf : isPackedFixed f = true
      · simp only [hpf, if_true]
        by_cases h1 : f.typ.wireTypeNumNonPacked = 1
        · simp only [h1, if_true]
          exact ⟨_, rfl, by intro b hb; cases custom <;> cases hb⟩
        · simp only [h1, if_false]
          exact ⟨_, rfl, by intro b hb; cases custom <;> cases hb⟩
      · simp only [hpf, Bool.false_eq_true, if_false]
        exact ⟨[], rfl, by simp⟩
    | map =>
      have hb : f.boxed = false := by
        cases h : f.boxed
        · rfl
        · have := hok.boxed h; rw [(generated_map hg).2.2] at this; cases this
      simp only
      have hs : slotDefault C custom (.field f) = .map [] := by simp [slotDefault, hb, hg]
      rw [hs]
      have hmp : f.typ.isMap = true := by rw [← hok.map]; exact (generated_map hg).1
      cases ht : f.typ <;> rw [ht] at hmp <;> first | (simp [FieldType.isMap] at hmp; done) | exact ⟨_, _, [], rfl, rfl, by simp, by simp⟩

theorem sizeOf_slot {l : List RVal} {x : RVal} (h : x ∈ l) : sizeOf x < sizeOf (RVal.struct l) := by
  have := List.sizeOf_lt_of_mem h
  simp only [RVal.struct.sizeOf_spec]
  omega

/-- `M::default()` is a value of type `M`. (A message that contains itself through fields that are neither optional nor
repeated has no default: `IsDefault` has no solution.) -/
theorem dflt_typed (hr : Resolved C) (hS : SchemaOk C) (hD : IsDefault C) (hQ : Allows C Q) (k : Nat) :
    ∀ idx m, C.D.getMessage idx = Option.some m → sizeOf (C.dflt idx) ≤ k → TypedSome C Q idx (C.dflt idx) := by
  induction k with
  | zero =>
    intro idx m hm h
    exfalso
    rw [hD idx m hm] at h
    simp at h
  | succ k ih =>
    intro idx m hm hk
    have hdf := hD idx m hm
    rw [hdf]
    refine typedSome_struct hm (by simp) ?_
    intro p hp
    obtain ⟨i, hi, hpi⟩ := List.mem_iff_getElem.mp hp
    subst hpi
    simp only [List.getElem_zip, List.getElem_map]
    have hi' : i < (members C.cfg m).length := by simpa using hi
    refine slotDefault_typed hr hS hQ hm (List.getElem?_eq_getElem hi') _ ?_
    intro f i' hf ht hcd
    obtain ⟨htyp, _⟩ := hr idx m hm _ (member_arm (by rw [List.getElem?_eq_getElem hi', hf]))
    simp only [ht] at htyp
    obtain ⟨m', hm'⟩ := htyp
    refine ih i' m' hm' ?_
    have hmem : C.dflt i' ∈ (members C.cfg m).map (slotDefault C (m.mustGenerateImplDefault C.D C.cfg)) := by
      rw [← hcd]
      exact List.mem_map.mpr ⟨_, List.getElem_mem hi', rfl⟩
    have := sizeOf_slot hmem
    rw [← hdf] at this
    omega

/-! ### Decoded values -/

theorem decTyp_typed {sub : MessageIndex → Bytes → RVal → Prop} {Sub : MessageIndex → RVal → Prop}
    (hsub : ∀ m b v, sub m b v → Sub m v) {t : FieldType} (ht : TypOk C t) {p : Bytes} {x : RVal} (h : DecTyp C sub t p x) :
    HasType C Sub t x := by
  cases t <;> simp only [DecTyp, HasType, TypOk] at h ht ⊢
  case enum e =>
    rcases h.2 with ⟨h1, h2⟩ | ⟨h1, h2⟩
    · exact ⟨_, h2, h1⟩
    · refine ⟨_, h2, ?_⟩
      cases hn : C.enumNums e with
      | nil => exact (ht hn).elim
      | cons a l => simp
  case message i => obtain ⟨b, _, h⟩ := h; exact hsub _ _ _ h
  case stringCow => obtain ⟨b, _, h1, h2⟩ := h; exact ⟨_, h2, h1⟩
  case string_ => obtain ⟨b, _, h1, h2⟩ := h; exact ⟨_, h2, h1⟩
  case bytesCow => obtain ⟨b, _, h2⟩ := h; exact ⟨_, h2⟩
  case bytes_ => obtain ⟨b, _, h2⟩ := h; exact ⟨_, h2⟩
  case sint32 => obtain ⟨_, y, h, _⟩ := h; exact ⟨_, h⟩
  case sint64 => obtain ⟨_, y, h, _⟩ := h; exact ⟨_, h⟩
  all_goals exact ⟨_, h.2⟩

/-- What an arm reads. -/
def ArmTyped (C : Ctx) (Sub : MessageIndex → RVal → Prop) (a : Arm) (x : RVal) : Prop :=
  if a.choice.isSome || a.field.boxed then HasType C Sub a.field.typ x
  else match a.field.frequency.generated with
    | .singular => HasType C Sub a.field.typ x
    | .arrayLike =>
      if a.field.isPacked then
        if a.field.typ.isFixedSize then
          if a.field.typ.wireTypeNumNonPacked = 1 then ∃ p, x = .pf64 p ∧ PfOk p else ∃ p, x = .pf32 p ∧ PfOk p
        else ∃ l, x = .vec l ∧ ∀ y ∈ l, HasType C Sub a.field.typ y
      else HasType C Sub a.field.typ x
    | .map => ∃ k t y z, a.field.typ = .map k t ∧ x = .map [(y, z)] ∧ HasType C Sub k y ∧ HasType C Sub t z

theorem lastPart_typed {P : RVal → Prop} {which : Bool} {d : RVal} {us : List (Bool × RVal)} (hd : P d)
    (h : ∀ u ∈ us, u.1 = which → P u.2) : P (lastPart which d us) := by
  unfold lastPart
  cases hl : (us.filter (·.1 == which)).getLast? with
  | none => exact hd
  | some u =>
    have := List.mem_of_getLast? hl
    simp only [List.mem_filter, beq_iff_eq] at this
    exact h u this.1 this.2

theorem decArm_typed {sub : MessageIndex → Bytes → RVal → Prop} {Sub : MessageIndex → RVal → Prop}
    (hsub : ∀ m b v, sub m b v → Sub m v) (hdef : ∀ t, TypOk C t → HasType C Sub t (typDefault C t)) {a : Arm}
    (ht : match a.field.typ with | .map k v => TypOk C k ∧ TypOk C v ∧ a.choice = Option.none | t => TypOk C t)
    (hmap : a.choice = Option.none → a.field.frequency.isMap = a.field.typ.isMap)
    (hbx : a.choice = Option.none → a.field.boxed = true → a.field.frequency.isOptional = true)
    {p : Bytes} {x : RVal} (h : DecArm C sub a p x) : ArmTyped C Sub a x := by
  have hval : a.field.typ.isMap = false → TypOk C a.field.typ := by
    intro h
    cases hh : a.field.typ <;> rw [hh] at ht h <;> first | exact ht | (simp [FieldType.isMap] at h)
  unfold DecArm at h
  unfold ArmTyped
  by_cases h0 : (a.choice.isSome || a.field.boxed) = true
  · simp only [h0, if_true] at h ⊢
    refine decTyp_typed hsub (hval ?_) h
    cases hc : a.choice with
    | none =>
      rw [← hmap hc]
      have hb : a.field.boxed = true := by simpa [hc] using h0
      have := hbx hc hb
      cases hf : a.field.frequency <;> rw [hf] at this <;> simp_all [Frequency.isOptional, Frequency.isMap]
    | some i =>
      cases hh : a.field.typ <;> simp only [FieldType.isMap]
      rw [hh] at ht
      rw [hc] at ht
      exact absurd ht.2.2 (by simp)
  simp only [h0, Bool.false_eq_true, if_false] at h ⊢
  have hc : a.choice = Option.none := by
    cases hc : a.choice with
    | none => rfl
    | some i => simp [hc] at h0
  have hmap := hmap hc
  cases hg : a.field.frequency.generated with
  | singular =>
    simp only [hg] at h ⊢
    exact decTyp_typed hsub (hval (by rw [← hmap]; exact (generated_singular hg).1)) h
  | arrayLike =>
    have htk := hval (by rw [← hmap]; exact (generated_array hg).1)
    simp only [hg] at h ⊢
    by_cases hp : a.field.isPacked = true
    · simp only [hp, if_true] at h ⊢
      obtain ⟨body, _, h⟩ := h
      by_cases hfx : a.field.typ.isFixedSize = true
      · simp only [hfx, if_true] at h ⊢
        by_cases h1 : a.field.typ.wireTypeNumNonPacked = 1
        · simp only [h1, if_true] at h ⊢
          refine ⟨_, h, ?_⟩
          intro b hb
          cases hb
          rw [List.length_take]
          exact ⟨body.length / 8, by omega⟩
        · simp only [h1, if_false] at h ⊢
          refine ⟨_, h, ?_⟩
          intro b hb
          cases hb
          rw [List.length_take]
          exact ⟨body.length / 4, by omega⟩
      · simp only [hfx, Bool.false_eq_true, if_false] at h ⊢
        obtain ⟨l, hl, rfl⟩ := h
        refine ⟨l, rfl, fun y hy => ?_⟩
        obtain ⟨q, hq⟩ := hl.mem hy
        exact decTyp_typed hsub htk hq
    · simp only [hp, Bool.false_eq_true, if_false] at h ⊢
      exact decTyp_typed hsub htk h
  | map =>
    simp only [hg] at h ⊢
    obtain ⟨k, v, body, us, hty, _, hps, rfl⟩ := h
    rw [hty] at ht
    refine ⟨k, v, _, _, hty, rfl, ?_, ?_⟩
    · refine lastPart_typed (hdef k ht.1) (fun u hu hw => ?_)
      obtain ⟨q, t, q', _, h⟩ := hps.mem hu
      rcases h with ⟨_, _, h⟩ | ⟨_, h, _⟩
      · exact decTyp_typed hsub ht.1 h
      · rw [hw] at h; cases h
    · refine lastPart_typed (hdef v ht.2.1) (fun u hu hw => ?_)
      obtain ⟨q, t, q', _, h⟩ := hps.mem hu
      rcases h with ⟨_, h, _⟩ | ⟨_, _, h⟩
      · rw [hw] at h; cases h
      · exact decTyp_typed hsub ht.2.1 h

theorem insertKV_mem {k v : RVal} {l : List (RVal × RVal)} {e : RVal × RVal} (h : e ∈ insertKV k v l) :
    e = (k, v) ∨ e ∈ l ∨ (e.2 = v ∧ ∃ v', (e.1, v') ∈ l) := by
  induction l with
  | nil => exact Or.inl (by simpa [insertKV] using h)
  | cons e' l ih =>
    obtain ⟨k', v'⟩ := e'
    unfold insertKV at h
    split at h
    · rcases List.mem_cons.mp h with rfl | h
      · exact Or.inr (Or.inr ⟨rfl, v', by simp⟩)
      · exact Or.inr (Or.inl (by simp [h]))
    · rcases List.mem_cons.mp h with rfl | h
      · exact Or.inr (Or.inl (by simp))
      · rcases ih h with h | h | ⟨h1, w, h2⟩
        · exact Or.inl h
        · exact Or.inr (Or.inl (by simp [h]))
        · exact Or.inr (Or.inr ⟨h1, w, by simp [h2]⟩)

theorem insertKV_keys {k v : RVal} {l : List (RVal × RVal)} :
    (insertKV k v l).map (·.1) = l.map (·.1) ∨
      ((insertKV k v l).map (·.1) = l.map (·.1) ++ [k] ∧ ∀ e ∈ l, keyEq e.1 k = false) := by
  induction l with
  | nil => exact Or.inr ⟨rfl, by simp⟩
  | cons e' l ih =>
    obtain ⟨k', v'⟩ := e'
    unfold insertKV
    by_cases hk : keyEq k' k = true
    · simp only [hk, if_true]; exact Or.inl rfl
    · simp only [hk, Bool.false_eq_true, if_false]
      rcases ih with h | ⟨h1, h2⟩
      · exact Or.inl (by simp [h])
      · refine Or.inr ⟨by simp [h1], ?_⟩
        intro e he
        rcases List.mem_cons.mp he with rfl | he
        · simpa using hk
        · exact h2 e he

theorem insertKV_pairwise {k v : RVal} {l : List (RVal × RVal)} (h : l.Pairwise (fun a b => keyEq a.1 b.1 = false)) :
    (insertKV k v l).Pairwise (fun a b => keyEq a.1 b.1 = false) := by
  have hm : ∀ l : List (RVal × RVal), l.Pairwise (fun a b => keyEq a.1 b.1 = false) ↔
      (l.map (·.1)).Pairwise (fun a b => keyEq a b = false) := fun l => by rw [List.pairwise_map]
  rw [hm] at h ⊢
  rcases insertKV_keys (k := k) (v := v) (l := l) with e | ⟨e, h2⟩
  · rw [e]; exact h
  · rw [e, List.pairwise_append]
    refine ⟨h, by simp, ?_⟩
    intro a ha b hb
    simp only [List.mem_singleton] at hb
    subst hb
    obtain ⟨e, he, rfl⟩ := List.mem_map.mp ha
    exact h2 e he

theorem memberAfter_typed {Sub : MessageIndex → RVal → Prop} {mem : Member} {j : Nat} {d : RVal}
    (hok : MemberOk mem) (hQ : ∀ f, mem = .field f → f.hasPresence = false → ∀ v, Q f v)
    (hd : MemberTyped C Q Sub mem d) (its : List Item) (harm : ∀ it ∈ its, it.1 ∈ memberArms mem j)
    (hits : ∀ it ∈ its, ArmTyped C Sub it.1 it.2) : MemberTyped C Q Sub mem (memberAfter d its) := by
  unfold memberAfter
  cases hl : its.getLast? with
  | none => exact hd
  | some it =>
    obtain ⟨a, x⟩ := it
    have hmem := List.mem_of_getLast? hl
    have ha := harm _ hmem
    have hx := hits _ hmem
    cases mem with
    | oneof fs =>
      simp only [memberArms, List.mem_map] at ha
      obtain ⟨⟨f, i⟩, hfi, rfl⟩ := ha
      simp only [ArmTyped, Option.isSome_some, Bool.true_or, if_true] at hx
      exact Or.inr ⟨i, f, x, List.mem_zipIdx_iff_getElem?.mp hfi, rfl, hx⟩
    | field f =>
      have hall : ∀ it ∈ its, it.1 = ⟨j, f, Option.none⟩ := fun it hit => by
        simpa [memberArms] using harm it hit
      have := hall _ hmem
      simp only at this
      subst this
      have hok : FieldOk f := hok
      simp only [ArmTyped, Option.isSome_none, Bool.false_or] at hx
      simp only [MemberTyped, FieldTyped] at hd ⊢
      cases hg : f.frequency.generated with
      | singular =>
        have hx' : HasType C Sub f.typ x := by
          by_cases hb : f.boxed = true
          · simpa [hb] using hx
          · simpa [hb, hg] using hx
        simp only
        cases ho : f.frequency.isOptional
        · have hb : f.boxed = false := by
            cases h : f.boxed
            · rfl
            · rw [hok.boxed h] at ho; cases ho
          simp only [hb, Bool.false_eq_true, if_false]
          exact ⟨hx', fun hp => hQ f rfl hp _⟩
        · simp only [if_true]
          right
          refine ⟨x, ?_, hx'⟩
          by_cases hb : f.boxed = true <;> simp [hb]
      | arrayLike =>
        have hb : f.boxed = false := by
          cases h : f.boxed
          · rfl
          · have := hok.boxed h; rw [(generated_array hg).2.2] at this; cases this
        simp only [hg] at hd
        simp only [hb, Bool.false_eq_true, if_false, hg] at hx ⊢
        by_cases hp : f.isPacked = true
        · simp only [hp, if_true] at hx ⊢
          by_cases hfx : f.typ.isFixedSize = true
          · simp only [isPackedFixed, hp, hfx, Bool.and_self, if_true] at hx ⊢
            exact hx
          · simp only [isPackedFixed, hp, hfx, Bool.and_false, Bool.false_eq_true, if_false] at hx ⊢
            exact hx
        · have hnp : isPackedFixed f = false := by simp [isPackedFixed, hp]
          simp only [hnp, hp, Bool.false_eq_true, if_false] at hd hx ⊢
          obtain ⟨l, rfl, hl'⟩ := hd
          refine ⟨_, rfl, ?_⟩
          intro y hy
          simp only [List.mem_append, List.mem_map] at hy
          rcases hy with hy | ⟨it, hit, rfl⟩
          · exact hl' y hy
          · have := hits it hit
            rw [hall it hit] at this
            simpa [ArmTyped, hb, hg, hp] using this
      | map =>
        have hb : f.boxed = false := by
          cases h : f.boxed
          · rfl
          · have := hok.boxed h; rw [(generated_map hg).2.2] at this; cases this
        simp only [hg] at hd
        simp only [hb, Bool.false_eq_true, if_false]
        obtain ⟨k, t, l, ht, rfl, h1, h2⟩ := hd
        refine ⟨k, t, _, ht, rfl, ?_⟩
        have hits' : ∀ it ∈ its, ∃ y z, it.2 = .map [(y, z)] ∧ HasType C Sub k y ∧ HasType C Sub t z := by
          intro it hit
          have := hits it hit
          rw [hall it hit] at this
          simp only [ArmTyped, Option.isSome_none, Bool.false_or, hb, Bool.false_eq_true, if_false, hg] at this
          obtain ⟨k', t', y, z, e1, e2, e3, e4⟩ := this
          rw [ht] at e1
          cases e1
          exact ⟨y, z, e2, e3, e4⟩
        clear hl hmem hx harm hits hall
        induction its generalizing l with
        | nil => exact ⟨h1, h2⟩
        | cons it its ih =>
          obtain ⟨y, z, e, hy, hz⟩ := hits' it (by simp)
          rw [List.foldl_cons]
          simp only [e]
          refine ih (insertKV y z l) ?_ (insertKV_pairwise h2) (fun it hit => hits' it (by simp [hit]))
          intro e' he'
          rcases insertKV_mem he' with rfl | h | ⟨h3, w, h4⟩
          · exact ⟨hy, hz⟩
          · exact h1 e' h
          · exact ⟨(h1 _ h4).1, by rw [h3]; exact hz⟩

theorem decMsg_typed (hr : Resolved C) (hS : SchemaOk C) (hD : IsDefault C) (hQ : Allows C Q) (n : Nat) :
    ∀ idx b v, DecMsg C n idx b v → TypedSome C Q idx v := by
  have hdflt : ∀ i m, C.D.getMessage i = Option.some m → TypedSome C Q i (C.dflt i) :=
    fun i m hm => dflt_typed hr hS hD hQ _ i m hm (Nat.le_refl _)
  induction n with
  | zero => intro _ _ _ h; exact h.elim
  | succ n ih =>
    rintro idx b v ⟨m, hm, h⟩
    cases hu : m.isUnit
    · rw [hu] at h
      obtain ⟨slots, ⟨us, hp, rfl⟩, rfl⟩ := h
      have hlen : (slotsAfter (C.dflt idx).slots us).length = (members C.cfg m).length := by
        simp [slotsAfter, hD idx m hm, RVal.slots]
      refine typedSome_struct hm hlen ?_
      intro p hp'
      obtain ⟨j, hj, hpj⟩ := List.mem_iff_getElem.mp hp'
      subst hpj
      rw [List.length_zip, hlen, Nat.min_self] at hj
      simp only [List.getElem_zip]
      have hjm := List.getElem?_eq_getElem hj
      have hd : (C.dflt idx).slots[j]? = Option.some (slotDefault C (m.mustGenerateImplDefault C.D C.cfg) (members C.cfg m)[j]) := by
        rw [hD idx m hm]; simp [RVal.slots, hj]
      have hsl : (slotsAfter (C.dflt idx).slots us)[j]? =
          Option.some (memberAfter (slotDefault C (m.mustGenerateImplDefault C.D C.cfg) (members C.cfg m)[j])
            ((us.filterMap id).filter (·.1.slot == j))) := by
        unfold slotsAfter
        rw [List.getElem?_mapIdx, hd]; rfl
      have hsl' := hsl
      rw [List.getElem?_eq_getElem (by omega)] at hsl'
      simp only [Option.some.injEq] at hsl'
      rw [hsl']
      have hin : ∀ it ∈ (us.filterMap id).filter (·.1.slot == j), Option.some it ∈ us ∧ it.1.slot = j := by
        intro it hit
        simp only [List.mem_filter, List.mem_filterMap, id_eq, beq_iff_eq] at hit
        obtain ⟨⟨_, h1, rfl⟩, h2⟩ := hit
        exact ⟨h1, h2⟩
      refine memberAfter_typed (j := j) ((hS idx m hm).members _ (List.getElem_mem hj)) ?_ ?_ _ ?_ ?_
      · intro f hf hpr v
        exact hQ idx m hm _ (member_arm (j := j) (by rw [hjm, hf])) hpr v
      · refine slotDefault_typed hr hS hQ hm hjm _ ?_
        intro f i hf ht _
        obtain ⟨htyp, _⟩ := hr idx m hm _ (member_arm (j := j) (by rw [hjm, hf]))
        simp only [ht] at htyp
        obtain ⟨m', hm'⟩ := htyp
        exact hdflt i m' hm'
      · intro it hit
        obtain ⟨h1, h2⟩ := hin it hit
        obtain ⟨mem, h3, h4⟩ := mem_arms.mp (hp.arms it h1)
        rw [h2, hjm] at h3
        cases h3
        rw [h2] at h4
        exact h4
      · intro it hit
        obtain ⟨h1, h2⟩ := hin it hit
        obtain ⟨r, hrec⟩ := hp.mem h1
        have harm := hp.arms it h1
        obtain ⟨mem, h3, h4⟩ := mem_arms.mp harm
        obtain ⟨g, q, _, _, h⟩ := hrec
        rcases h with ⟨a, ha, x, _, hda, he⟩ | ⟨_, _, he⟩
        · cases he
          refine decArm_typed ih ?_ (hr idx m hm _ harm).1 ?_ ?_ hda
          · intro t ht
            refine typDefault_typed ht ?_
            rintro i rfl
            obtain ⟨m', hm'⟩ := ht
            exact hdflt i m' hm'
          · intro hc
            have hmo := (hS idx m hm).members _ (List.mem_of_getElem? h3)
            rcases memberArms_cases h4 with h | ⟨h, _⟩
            · simp only at h hc; rw [hc] at h; cases h
            · cases mem with
              | field f =>
                simp only [memberArms, List.cons.injEq, and_true] at h
                simp only at h ⊢
                rw [← h]
                exact FieldOk.map hmo
              | oneof fs =>
                simp only [memberArms, List.mem_map] at h4
                obtain ⟨⟨f, i⟩, _, h4⟩ := h4
                simp only at h4 hc
                rw [← h4] at hc; cases hc
          · intro hc
            have hmo := (hS idx m hm).members _ (List.mem_of_getElem? h3)
            rcases memberArms_cases h4 with h | ⟨h, _⟩
            · simp only at h hc; rw [hc] at h; cases h
            · cases mem with
              | field f =>
                simp only [memberArms, List.cons.injEq, and_true] at h
                simp only at h ⊢
                rw [← h]
                exact FieldOk.boxed hmo
              | oneof fs =>
                simp only [memberArms, List.mem_map] at h4
                obtain ⟨⟨f, i⟩, _, h4⟩ := h4
                simp only at h4 hc
                rw [← h4] at hc; cases hc
        · cases he
    · rw [hu] at h
      simp only [if_true] at h
      rw [h]
      exact hdflt idx m hm

end QP.Gen
