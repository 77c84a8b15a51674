import Verif.Spec.Unsign
import Verif.Props.Messages
/-!
# `unsign` keeps types and encodings
-/

set_option linter.unusedVariables false

namespace QP.Gen
open QP.Pbrs Spec

variable {C : Ctx}

theorem not_message_of_noPresence {f : Field} (hg : f.frequency.generated = .singular) (hnp : f.hasPresence = false)
    (m : MessageIndex) : f.typ ≠ .message m := by
  intro hm
  unfold Field.hasPresence at hnp
  rw [hm] at hnp
  cases hf : f.frequency <;> rw [hf] at hnp hg <;>
    simp [FieldType.isMap, FieldType.asMessage, Frequency.generated, Frequency.isMap,
      Frequency.isRepeated] at hnp hg

theorem unsignTyp_typed {s s' : MessageIndex → RVal → Prop} {u : MessageIndex → RVal → RVal}
    (hu : ∀ i v, s i v → s' i (u i v)) {t : FieldType} {v : RVal} (h : HasType C s t v) :
    HasType C s' t (unsignTyp u t v) := by
  cases t <;> first | exact hu _ _ h | exact h

theorem unsignScalar_typed {s : MessageIndex → RVal → Prop} {s' : MessageIndex → RVal → Prop} {t : FieldType} {v : RVal}
    (hm : ∀ i, t ≠ .message i) (h : HasType C s t v) : HasType C s' t (unsignScalar t v) := by
  cases t <;> first | exact (hm _ rfl).elim | exact h | skip
  all_goals
    obtain ⟨x, rfl⟩ := h
    exact ⟨_, rfl⟩

theorem unsignScalar_plain {t : FieldType} {v : RVal} :
    (t = .float → unsignScalar t v ≠ .w32 0x80000000#32) ∧ (t = .double → unsignScalar t v ≠ .w64 0x8000000000000000#64) := by
  refine ⟨?_, ?_⟩
  · rintro rfl h
    cases v with
    | w32 x =>
      simp only [unsignScalar, RVal.w32.injEq] at h
      split at h
      · cases h
      · contradiction
    | _ => cases h
  · rintro rfl h
    cases v with
    | w64 x =>
      simp only [unsignScalar, RVal.w64.injEq] at h
      split at h
      · cases h
      · contradiction
    | _ => cases h

theorem unsignMember_typed {s s' : MessageIndex → RVal → Prop} {u : MessageIndex → RVal → RVal}
    (hu : ∀ i v, s i v → s' i (u i v)) (hk : ∀ i v w, s i v → keyEq (u i v) w = false) {mem : Member} {v : RVal}
    (hd : ∀ f, mem = .field f → f.frequency.generated = .singular → f.hasPresence = false → f.default = Option.none)
    (h : MemberTyped C AnyValue s mem v) : MemberTyped C Plain s' mem (unsignMember u mem v) := by
  cases mem with
  | oneof fs =>
    rcases h with rfl | ⟨i, f, x, h1, rfl, h3⟩
    · exact Or.inl rfl
    · refine Or.inr ⟨i, f, unsignTyp u f.typ x, h1, ?_, unsignTyp_typed hu h3⟩
      simp only [unsignMember, h1]
  | field f =>
    simp only [MemberTyped, FieldTyped, unsignMember] at h ⊢
    cases hg : f.frequency.generated with
    | singular =>
      rw [hg] at h
      simp only at h ⊢
      by_cases ho : f.frequency.isOptional = true
      · simp only [ho, if_true] at h ⊢
        rcases h with rfl | ⟨x, rfl, hx⟩
        · exact Or.inl rfl
        · exact Or.inr ⟨_, rfl, unsignTyp_typed hu hx⟩
      · simp only [ho] at h ⊢
        by_cases hp : f.hasPresence = true
        · simp only [hp, if_true]
          exact ⟨unsignTyp_typed hu h.1, fun e => by cases e⟩
        · simp only [hp]
          have hp' : f.hasPresence = false := by simpa using hp
          have hnm := not_message_of_noPresence hg hp'
          exact ⟨unsignScalar_typed hnm h.1, fun _ => ⟨hd f rfl hg hp', unsignScalar_plain⟩⟩
    | arrayLike =>
      rw [hg] at h
      simp only at h ⊢
      by_cases hpf : isPackedFixed f = true
      · simp only [hpf, if_true] at h ⊢
        by_cases hw : f.typ.wireTypeNumNonPacked = 1
        · simp only [hw, if_true] at h ⊢
          obtain ⟨p, rfl, hp⟩ := h
          exact ⟨p, rfl, hp⟩
        · simp only [hw, if_false] at h ⊢
          obtain ⟨p, rfl, hp⟩ := h
          exact ⟨p, rfl, hp⟩
      · simp only [hpf] at h ⊢
        obtain ⟨l, rfl, hl⟩ := h
        refine ⟨_, rfl, fun x hx => ?_⟩
        obtain ⟨y, hy, rfl⟩ := List.mem_map.mp hx
        exact unsignTyp_typed hu (hl y hy)
    | map =>
      rw [hg] at h
      simp only at h ⊢
      obtain ⟨k, t, l, ht, rfl, hl, hpw⟩ := h
      rw [ht]
      refine ⟨k, t, _, rfl, rfl, fun e he => ?_, ?_⟩
      · obtain ⟨y, hy, rfl⟩ := List.mem_map.mp he
        exact ⟨unsignTyp_typed hu (hl y hy).1, unsignTyp_typed hu (hl y hy).2⟩
      · rw [List.pairwise_map]
        refine hpw.imp_of_mem fun {a b} ha hb hab => ?_
        have := (hl a ha).1
        cases k <;> first | exact hk _ _ _ this | exact hab

theorem unsign_typed (hd : NoDefaults C) (n : Nat) : ∀ idx v, WellTyped C AnyValue n idx v →
    WellTyped C Plain n idx (unsign C n idx v) := by
  induction n with
  | zero => intro _ _ h; exact h
  | succ n ih =>
    rintro idx v ⟨m, slots, hm, rfl, hlen, hmem⟩
    refine ⟨m, _, hm, (by simp only [unsign, hm]; rfl), by simp [RVal.slots, hlen], ?_⟩
    intro p hp
    obtain ⟨j, hj⟩ := List.mem_iff_getElem?.mp hp
    rw [List.getElem?_zip_eq_some, List.getElem?_zipWith_eq_some] at hj
    obtain ⟨h1, a, b, h2, h3, h4⟩ := hj
    rw [h2] at h1; cases h1
    rw [← h4]
    refine unsignMember_typed ih ?_ ?_ (hmem (p.1, b) ?_)
    · intro i v w h
      cases n with
      | zero => exact h.elim
      | succ n =>
        obtain ⟨m', s', hm', rfl, _⟩ := h
        simp only [unsign, hm']
        rfl
    · intro f hf
      exact hd idx m hm f (hf ▸ List.mem_of_getElem? h2)
    · exact List.mem_of_getElem? (List.getElem?_zip_eq_some.mpr ⟨h2, h3⟩)

/-! ### Encodings -/

theorem unsignTyp_enc {s : MessageIndex → RVal → Prop} {u : MessageIndex → RVal → RVal}
    {e : MessageIndex → RVal → Bytes} (hu : ∀ i v, s i v → e i (u i v) = e i v) {t : FieldType} {v : RVal}
    (h : HasType C s t v) : encTyp e t (unsignTyp u t v) = encTyp e t v := by
  cases t <;> first | rfl | skip
  simp only [unsignTyp, encTyp, hu _ _ h]

theorem flatMap_congr' {α β : Type} {l : List α} {f g : α → List β} (h : ∀ x ∈ l, f x = g x) : l.flatMap f = l.flatMap g := by
  induction l with
  | nil => rfl
  | cons a l ih =>
    rw [List.flatMap_cons, List.flatMap_cons, h a (by simp), ih (fun x hx => h x (by simp [hx]))]

theorem unsignMember_enc {s : MessageIndex → RVal → Prop} {u : MessageIndex → RVal → RVal}
    {e : MessageIndex → RVal → Bytes} (hu : ∀ i v, s i v → e i (u i v) = e i v) {mem : Member} {v : RVal} {j : Nat}
    (hd : ∀ f, mem = .field f → f.frequency.generated = .singular → f.hasPresence = false → f.default = Option.none)
    (hok : MemberOk mem)
    (h : MemberTyped C AnyValue s mem v) :
    (memberItems C j mem (unsignMember u mem v)).flatMap (itemEnc e) = (memberItems C j mem v).flatMap (itemEnc e) := by
  cases mem with
  | oneof fs =>
    rcases h with rfl | ⟨i, f, x, h1, rfl, h3⟩
    · rfl
    · simp only [unsignMember, h1, memberItems, List.flatMap_cons, List.flatMap_nil, List.append_nil, itemEnc,
        itemPayload, Option.isSome_some, if_true, unsignTyp_enc hu h3]
  | field f =>
    simp only [MemberTyped, FieldTyped, unsignMember, memberItems] at h ⊢
    have single : ∀ x, HasType C s f.typ x → f.frequency.generated = .singular →
        itemEnc e (⟨j, f, Option.none⟩, unsignTyp u f.typ x) = itemEnc e (⟨j, f, Option.none⟩, x) := by
      intro x hx hg
      simp only [itemEnc, itemPayload, hg, unsignTyp_enc hu hx]
    have hgc : f.frequency.generated = .singular ∨ f.frequency.generated = .arrayLike ∨ f.frequency.generated = .map := by
      cases f.frequency.generated <;> simp
    rcases hgc with hg | hg | hg
    · simp only [hg] at h ⊢
      by_cases ho : f.frequency.isOptional = true
      · simp only [ho, if_true] at h ⊢
        rcases h with rfl | ⟨x, rfl, hx⟩
        · rfl
        · simp only [List.map_cons, List.map_nil, List.flatMap_cons, List.flatMap_nil, single x hx hg]
      · simp only [ho, Bool.false_eq_true, if_false] at h ⊢
        by_cases hp : f.hasPresence = true
        · simp only [hp, if_true, List.map_cons, List.map_nil, List.flatMap_cons, List.flatMap_nil,
            single v h.1 hg]
        · have hp' : f.hasPresence = false := by simpa using hp
          have hdef : fieldDefault C f = typDefault C f.typ := by
            unfold fieldDefault; rw [hd f rfl hg hp']
          simp only [hp, hdef, Bool.false_eq_true, if_false]
          by_cases he : unsignScalar f.typ v = v
          · rw [he]
          · have : scalarEq f.typ (unsignScalar f.typ v) (typDefault C f.typ) = true ∧
                scalarEq f.typ v (typDefault C f.typ) = true := by
              have h1 := h.1
              cases ht : f.typ <;> rw [ht] at he h1 <;> first | exact (he rfl).elim | skip
              all_goals
                obtain ⟨x, rfl⟩ := h1
                simp only [unsignScalar] at he ⊢
                split at he
                · rename_i hx
                  subst hx
                  simp only [if_true]
                  exact ⟨rfl, rfl⟩
                · exact (he rfl).elim
            rw [if_pos this.1, if_pos this.2]
    · simp only [hg] at h ⊢
      by_cases hpf : isPackedFixed f = true
      · simp only [hpf, if_true] at h
        by_cases hw : f.typ.wireTypeNumNonPacked = 1
        · simp only [hw, if_true] at h
          obtain ⟨p, rfl, hp⟩ := h
          rfl
        · simp only [hw, if_false] at h
          obtain ⟨p, rfl, hp⟩ := h
          rfl
      · simp only [hpf] at h
        obtain ⟨l, rfl, hl⟩ := h
        simp only
        have hmap : (l.map (unsignTyp u f.typ)).flatMap (encTyp e f.typ) = l.flatMap (encTyp e f.typ) := by
          rw [List.flatMap_map]
          exact flatMap_congr' fun x hx => unsignTyp_enc hu (hl x hx)
        by_cases hpk : f.isPacked = true
        · simp only [hpk, if_true, List.isEmpty_map]
          by_cases hem : l.isEmpty = true
          · simp only [hem, if_true]
          · simp only [hem, Bool.false_eq_true, if_false, List.map_cons, List.map_nil, List.flatMap_cons, List.flatMap_nil, List.append_nil,
              itemEnc, itemPayload, hg, hpk, if_true, hmap, Option.isSome_none]
        · simp only [hpk, Bool.false_eq_true, if_false, List.flatMap_map, List.map_map]
          refine flatMap_congr' fun x hx => ?_
          simp only [Function.comp, itemEnc, itemPayload, hg, hpk, Option.isSome_none, Bool.false_eq_true, if_false, unsignTyp_enc hu (hl x hx)]
    · simp only [hg] at h ⊢
      obtain ⟨k, t, l, ht, rfl, hl, hpw⟩ := h
      rw [ht]
      simp only [List.map_map, List.flatMap_map]
      refine flatMap_congr' fun x hx => ?_
      simp only [Function.comp, itemEnc, itemPayload, hg, Option.isSome_none, Bool.false_eq_true, if_false, ht, entryEnc,
        unsignTyp_enc hu (hl x hx).1, unsignTyp_enc hu (hl x hx).2]

theorem zipWith_idx {α β γ δ : Type} (g : α → β → γ) (F : (α × γ) × Nat → List δ) (G : (α × β) × Nat → List δ)
    (l : List α) (s : List β) (h : ∀ a b j, (a, b) ∈ l.zip s → F ((a, g a b), j) = G ((a, b), j)) (k : Nat) :
    ((l.zip (List.zipWith g l s)).zipIdx k).flatMap F = ((l.zip s).zipIdx k).flatMap G := by
  induction l generalizing s k with
  | nil => rfl
  | cons a l ih =>
    cases s with
    | nil => rfl
    | cons b s =>
      simp only [List.zipWith_cons_cons, List.zip_cons_cons, List.zipIdx_cons, List.flatMap_cons]
      rw [h a b k (by simp), ih s (fun a b j hm => h a b j (by simp [hm]))]

theorem unsign_enc (hS : SchemaOk C) (hd : NoDefaults C) (n : Nat) : ∀ idx v, WellTyped C AnyValue n idx v →
    encMsg C n idx (unsign C n idx v) = encMsg C n idx v := by
  induction n with
  | zero => intro _ _ h; rfl
  | succ n ih =>
    rintro idx v ⟨m, slots, hm, rfl, hlen, hmem⟩
    simp only [encMsg, unsign, hm, msgItems, RVal.slots, List.flatMap_assoc]
    refine zipWith_idx _ _ _ _ _ (fun a b j hab => ?_) 0
    refine unsignMember_enc ih (fun f hf => hd idx m hm f (hf ▸ ?_)) ?_ (hmem _ hab)
    · exact (List.of_mem_zip hab).1
    · exact (hS idx m hm).members _ (List.of_mem_zip hab).1

end QP.Gen
