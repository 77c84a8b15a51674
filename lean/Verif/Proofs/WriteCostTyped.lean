import Verif.Proofs.WriteCost
import Verif.Proofs.Depth
set_option linter.unusedVariables false
/-! The work of encoding a typed value: independent of the fuel; the depth of values of messages that are not recursive. -/

namespace QP.Gen
open QP.Pbrs Spec

section
variable {C : Ctx} {Q : Field → RVal → Prop} {sub sub' : MessageIndex → RVal → Prop} {sc sc' wc wc' : MessageIndex → RVal → Nat}

theorem sizeTypCost_congr (hs : ∀ m v, sub m v → sc m v = sc' m v) {t : FieldType} {v : RVal} (h : HasType C sub t v) :
    sizeTypCost sc t v = sizeTypCost sc' t v := by
  cases t
  case message m => simp only [sizeTypCost, hs m v h]
  all_goals rfl

theorem writeTypCost_congr (hs : ∀ m v, sub m v → sc m v = sc' m v) (hw : ∀ m v, sub m v → wc m v = wc' m v) {t : FieldType} {v : RVal}
    (h : HasType C sub t v) : writeTypCost sc wc t v = writeTypCost sc' wc' t v := by
  cases t
  case message m => simp only [writeTypCost, hs m v h, hw m v h]
  all_goals rfl

theorem memberCost_congr (hs : ∀ m v, sub m v → sc m v = sc' m v) (hw : ∀ m v, sub m v → wc m v = wc' m v) {mem : Member} {v : RVal}
    (h : MemberTyped C Q sub mem v) : sizeMemberCost sc mem v = sizeMemberCost sc' mem v ∧ writeMemberCost sc wc mem v = writeMemberCost sc' wc' mem v := by
  have st : ∀ {t v}, HasType C sub t v → sizeTypCost sc t v = sizeTypCost sc' t v := fun h => sizeTypCost_congr hs h
  have wt : ∀ {t v}, HasType C sub t v → writeTypCost sc wc t v = writeTypCost sc' wc' t v := fun h => writeTypCost_congr hs hw h
  cases mem with
  | oneof fs =>
    rcases h with rfl | ⟨i, f, x, h1, rfl, h2⟩
    · exact ⟨rfl, rfl⟩
    · simp only [sizeMemberCost, writeMemberCost, h1, st h2, wt h2]
      exact ⟨trivial, trivial⟩
  | field f =>
    simp only [sizeMemberCost, writeMemberCost]
    unfold sizeFieldCost writeFieldCost
    simp only [MemberTyped] at h
    unfold FieldTyped at h
    cases hg : f.frequency.generated
    · rw [hg] at h
      simp only at h ⊢
      cases ho : f.frequency.isOptional
      · rw [ho] at h
        simp only [Bool.false_eq_true, if_false] at h
        cases f.hasPresence
        · simp only [st h.1, wt h.1]
          exact ⟨trivial, trivial⟩
        · simp only [st h.1, wt h.1]
          exact ⟨trivial, trivial⟩
      · rw [ho] at h
        simp only [if_true] at h
        cases f.hasPresence
        · exact ⟨rfl, rfl⟩
        · rcases h with rfl | ⟨x, rfl, hx⟩
          · exact ⟨rfl, rfl⟩
          · simp only [st hx, wt hx]
            exact ⟨trivial, trivial⟩
    · rw [hg] at h
      simp only at h ⊢
      by_cases hpf : isPackedFixed f = true
      · rw [if_pos hpf] at h
        split at h
        · obtain ⟨p, rfl, _⟩ := h
          exact ⟨rfl, rfl⟩
        · obtain ⟨p, rfl, _⟩ := h
          exact ⟨rfl, rfl⟩
      · rw [if_neg hpf] at h
        obtain ⟨l, rfl, hl⟩ := h
        simp only
        rw [List.map_congr_left (fun x hx => st (hl x hx)), List.map_congr_left (fun x hx => congrArg (1 + ·) (st (hl x hx))),
          List.map_congr_left (fun x hx => show sizeTypCost sc f.typ x + writeTypCost sc wc f.typ x = sizeTypCost sc' f.typ x + writeTypCost sc' wc' f.typ x by
            rw [st (hl x hx), wt (hl x hx)]),
          List.map_congr_left (fun x hx => show 1 + writeTypCost sc wc f.typ x = 1 + writeTypCost sc' wc' f.typ x by rw [wt (hl x hx)])]
        exact ⟨rfl, rfl⟩
    · rw [hg] at h
      obtain ⟨k, t, l, ht, rfl, hl, _⟩ := h
      simp only [ht]
      refine ⟨congrArg (fun l => 1 + List.sum l) (List.map_congr_left fun kv hkv => ?_), congrArg (fun l => 1 + List.sum l) (List.map_congr_left fun kv hkv => ?_)⟩
      · rw [st (hl kv hkv).1, st (hl kv hkv).2]
      · rw [st (hl kv hkv).1, st (hl kv hkv).2, wt (hl kv hkv).1, wt (hl kv hkv).2]

theorem zipWith_congr {α β γ : Type} {f g : α → β → γ} : ∀ {as : List α} {bs : List β}, (∀ p ∈ as.zip bs, f p.1 p.2 = g p.1 p.2) →
    List.zipWith f as bs = List.zipWith g as bs
  | [], _, _ => by simp
  | _ :: _, [], _ => by simp
  | a :: as, b :: bs, h => by
    simp only [List.zipWith_cons_cons]
    rw [h (a, b) (by simp), zipWith_congr (fun p hp => h p (by simp only [List.zip_cons_cons, List.mem_cons]; exact Or.inr hp))]

/-- More fuel than the value is deep makes no difference. -/
theorem cost_stable : ∀ (n : Nat) (idx : MessageIndex) (v : RVal) (N : Nat), WellTyped C Q n idx v → n ≤ N →
    sizeCost C N idx v = sizeCost C n idx v ∧ writeCost C N idx v = writeCost C n idx v
  | 0, _, _, _, h, _ => h.elim
  | n + 1, idx, v, 0, _, hN => by omega
  | n + 1, idx, v, N + 1, ⟨m, slots, hm, hv, hlen, h⟩, hN => by
    have hs : ∀ m v, WellTyped C Q n m v → sizeCost C N m v = sizeCost C n m v := fun m v h => (cost_stable n m v N h (by omega)).1
    have hw : ∀ m v, WellTyped C Q n m v → writeCost C N m v = writeCost C n m v := fun m v h => (cost_stable n m v N h (by omega)).2
    subst hv
    simp only [sizeCost, writeCost, hm, RVal.slots]
    rw [zipWith_congr (fun p hp => (memberCost_congr hs hw (h p hp)).1), zipWith_congr (fun p hp => (memberCost_congr hs hw (h p hp)).2)]
    exact ⟨rfl, rfl⟩

/-- The fields of a member. -/
def memberFields : Member → List Field
  | .field f => [f]
  | .oneof fs => fs

theorem memberTyped_inside {mem : Member} {v : RVal} (hj : ∀ f ∈ memberFields mem, ∀ j x, Inside f.typ j → sub j x → sub' j x)
    (h : MemberTyped C Q sub mem v) : MemberTyped C Q sub' mem v := by
  have ht : ∀ {t : FieldType} {x : RVal}, (∀ j x, t = .message j → sub j x → sub' j x) → HasType C sub t x → HasType C sub' t x := by
    intro t x hi h
    cases t
    case message m => exact hi m x rfl h
    all_goals exact h
  cases mem with
  | oneof fs =>
    rcases h with h | ⟨i, f, x, h1, h2, h3⟩
    · exact Or.inl h
    · exact Or.inr ⟨i, f, x, h1, h2, ht (fun j x e => hj f (List.mem_of_getElem? h1) j x (Or.inl e)) h3⟩
  | field f =>
    have hf := hj f (by simp [memberFields])
    have ht' : ∀ {x}, HasType C sub f.typ x → HasType C sub' f.typ x := fun h => ht (fun j x e => hf j x (Or.inl e)) h
    simp only [MemberTyped] at h ⊢
    unfold FieldTyped at h ⊢
    split
    · rename_i hg
      rw [hg] at h
      simp only at h
      split
      · rename_i ho
        rw [if_pos ho] at h
        exact h.imp id fun ⟨x, h1, h2⟩ => ⟨x, h1, ht' h2⟩
      · rename_i ho
        rw [if_neg ho] at h
        exact ⟨ht' h.1, h.2⟩
    · rename_i hg
      rw [hg] at h
      simp only at h
      split
      · rename_i hp
        rw [if_pos hp] at h
        exact h
      · rename_i hp
        rw [if_neg hp] at h
        obtain ⟨l, h1, h2⟩ := h
        exact ⟨l, h1, fun x hx => ht' (h2 x hx)⟩
    · rename_i hg
      rw [hg] at h
      obtain ⟨k, t, l, h1, h2, h3, h4⟩ := h
      exact ⟨k, t, l, h1, h2, fun e he => ⟨ht (fun j x e => hf j x (Or.inr ⟨k, t, h1, Or.inl e⟩)) (h3 e he).1,
        ht (fun j x e => hf j x (Or.inr ⟨k, t, h1, Or.inr e⟩)) (h3 e he).2⟩, h4⟩

theorem mentions_member {idx j : MessageIndex} {m : Message} {mem : Member} {f : Field} (hm : C.D.getMessage idx = Option.some m)
    (h1 : mem ∈ members C.cfg m) (h2 : f ∈ memberFields mem) (h3 : Inside f.typ j) : Mentions C idx j := by
  obtain ⟨i, hi⟩ := List.mem_iff_getElem?.mp h1
  cases mem with
  | field g =>
    simp only [memberFields, List.mem_singleton] at h2
    subst h2
    exact ⟨m, ⟨i, f, Option.none⟩, hm, mem_arms.mpr ⟨_, hi, by simp [memberArms]⟩, h3⟩
  | oneof fs =>
    obtain ⟨k, hk⟩ := List.mem_iff_getElem?.mp h2
    refine ⟨m, ⟨i, f, Option.some k⟩, hm, mem_arms.mpr ⟨_, hi, ?_⟩, h3⟩
    simp only [memberArms, List.mem_map]
    exact ⟨(f, k), by rw [List.mem_zipIdx_iff_getElem?]; exact hk, rfl⟩

/-- The values of a message that is not recursive are no deeper than there are messages. -/
theorem depth_bounded (hC : Resolved C) : ∀ (d : Nat) (n : Nat) (idx : MessageIndex) (v : RVal) (l : List MessageIndex),
    (idx :: l).Nodup → (∀ i ∈ idx :: l, ∃ m, C.D.getMessage i = Option.some m) →
    (∀ x ∈ l, ∃ j, Mentions C x j ∧ Path (Mentions C) j idx) → ¬ Recursive C idx → messageCount C ≤ l.length + d →
    WellTyped C Q n idx v → WellTyped C Q d idx v
  | _, 0, _, _, _, _, _, _, _, _, h => h.elim
  | 0, n + 1, idx, v, l, hn, hl, hp, hr, hd, h => by
    have := count_bound hn hl
    simp only [List.length_cons] at this
    omega
  | d + 1, n + 1, idx, v, l, hn, hl, hp, hr, hd, ⟨m, slots, hm, hv, hlen, h⟩ => by
    refine ⟨m, slots, hm, hv, hlen, fun p hp' => memberTyped_inside (fun f hf j x hj hx => ?_) (h p hp')⟩
    have hmen : Mentions C idx j := mentions_member hm (List.of_mem_zip (a := p.1) (b := p.2) hp').1 hf hj
    refine depth_bounded hC d n j x (idx :: l) ?_ ?_ ?_ (fun h => hr (h.of_mentions hmen)) (by simp only [List.length_cons]; omega) hx
    · refine List.nodup_cons.mpr ⟨?_, hn⟩
      intro hin
      rcases List.mem_cons.mp hin with rfl | hin
      · exact hr ⟨j, j, Path.refl _, hmen, Path.refl _⟩
      · obtain ⟨k, h1, h2⟩ := hp j hin
        exact hr ⟨idx, j, Path.refl _, hmen, (Path.edge h1).trans h2⟩
    · intro i hi
      rcases List.mem_cons.mp hi with rfl | hi
      · exact mentions_exists hC hmen
      · exact hl i hi
    · intro x hx
      rcases List.mem_cons.mp hx with rfl | hx
      · exact ⟨j, hmen, Path.refl _⟩
      · obtain ⟨k, h1, h2⟩ := hp x hx
        exact ⟨k, h1, h2.step hmen⟩

end
end QP.Gen
