import Verif.Spec.Equality
import Verif.Proofs.Unsign
import Verif.Proofs.GenRead
import Verif.Props.PackedFixed
set_option linter.unusedVariables false
/-!
# `==` on generated messages (proofs)
-/

namespace QP.Gen
open QP.Pbrs

/-! ## `==` sees only what can be observed -/

theorem scalarEq_obs (t : FieldType) (a b : RVal) : scalarEq t a.obs b.obs = scalarEq t a b := by
  cases a <;> cases b <;> rfl

theorem slots_obs (v : RVal) : v.obs.slots = v.slots.map RVal.obs := by
  cases v <;> first | rfl | (exact obsList_eq _)

theorem eqSeq_map {α β : Type} {eq : α → α → Bool} {eq' : β → β → Bool} {g : α → β} (h : ∀ a b, eq' (g a) (g b) = eq a b) :
    ∀ l l' : List α, eqSeq eq' (l.map g) (l'.map g) = eqSeq eq l l'
  | [], [] => rfl
  | [], _ :: _ => rfl
  | _ :: _, [] => rfl
  | a :: l, b :: l' => by rw [List.map_cons, List.map_cons, eqSeq, eqSeq, h, eqSeq_map h l l']

theorem mapGet_obs (k : RVal) : ∀ l : List (RVal × RVal), mapGet k.obs (l.map fun e => (e.1.obs, e.2.obs)) = (mapGet k l).map RVal.obs
  | [] => rfl
  | (k', v) :: l => by
    rw [List.map_cons, mapGet, mapGet, keyEq_obs]
    split
    · rfl
    · exact mapGet_obs k l

theorem eqMap_obs {eq : RVal → RVal → Bool} (h : ∀ a b, eq a.obs b.obs = eq a b) (l l' : List (RVal × RVal)) :
    eqMap eq (RVal.obsEntries l) (RVal.obsEntries l') = eqMap eq l l' := by
  rw [obsEntries_eq, obsEntries_eq]
  unfold eqMap
  rw [List.length_map, List.length_map, List.all_map]
  refine congrArg (fun x => (l.length == l'.length) && x) ?_
  refine congrArg (fun g => List.all l g) ?_
  funext e
  simp only [Function.comp]
  rw [mapGet_obs]
  cases mapGet e.1 l' with
  | none => rfl
  | some v => exact h _ _

section
variable {sub : MessageIndex → RVal → RVal → Bool} (hs : ∀ i a b, sub i a.obs b.obs = sub i a b)
include hs

theorem eqTyp_obs (t : FieldType) (a b : RVal) : eqTyp sub t a.obs b.obs = eqTyp sub t a b := by
  cases t <;> first | exact scalarEq_obs _ a b | exact hs _ a b

theorem eqField_obs (f : Field) (a b : RVal) : eqField sub f a.obs b.obs = eqField sub f a b := by
  unfold eqField
  cases f.frequency.generated with
  | singular =>
    simp only
    split
    · cases a <;> cases b <;> first | rfl | exact eqTyp_obs hs _ _ _
    · exact eqTyp_obs hs _ _ _
  | arrayLike =>
    cases a <;> cases b <;> first | rfl | skip
    rename_i l l'
    show eqSeq _ (RVal.obsList l) (RVal.obsList l') = _
    rw [obsList_eq, obsList_eq]
    exact eqSeq_map (eqTyp_obs hs _) l l'
  | map =>
    simp only
    cases f.typ <;> first | rfl | skip
    cases a <;> cases b <;> first | rfl | skip
    exact eqMap_obs (eqTyp_obs hs _) _ _

theorem eqMember_obs (mem : Member) (a b : RVal) : eqMember sub mem a.obs b.obs = eqMember sub mem a b := by
  unfold eqMember
  cases mem with
  | field f => exact eqField_obs hs f a b
  | oneof fs =>
    cases a <;> cases b <;> first | rfl | skip
    rename_i i x j y
    simp only [RVal.obs]
    cases fs[i]? with
    | none => rfl
    | some f => simp only; rw [eqTyp_obs hs]

end

theorem eqMembers_map {eq : Member → RVal → RVal → Bool} {g : RVal → RVal} (h : ∀ mem a b, eq mem (g a) (g b) = eq mem a b) :
    ∀ (ms : List Member) (l l' : List RVal), eqMembers eq ms (l.map g) (l'.map g) = eqMembers eq ms l l'
  | [], [], [] => rfl
  | [], [], _ :: _ => rfl
  | [], _ :: _, [] => rfl
  | [], _ :: _, _ :: _ => rfl
  | _ :: _, [], [] => rfl
  | _ :: _, [], _ :: _ => rfl
  | _ :: _, _ :: _, [] => rfl
  | m :: ms, a :: l, b :: l' => by simp only [List.map_cons, eqMembers]; rw [h, eqMembers_map h ms l l']

theorem eqMsg_obs (C : Ctx) (n : Nat) : ∀ idx v w, eqMsg C n idx v.obs w.obs = eqMsg C n idx v w := by
  induction n with
  | zero => intros; rfl
  | succ n ih =>
    intro idx v w
    unfold eqMsg
    cases C.D.getMessage idx with
    | none => rfl
    | some m =>
      simp only
      rw [slots_obs, slots_obs]
      exact eqMembers_map (eqMember_obs ih) _ _ _

/-- Values that look the same cannot be told apart by `==`. -/
theorem eqMsg_congr (C : Ctx) (n : Nat) (idx : MessageIndex) {v v' w w' : RVal} (hv : v'.obs = v.obs) (hw : w'.obs = w.obs) :
    eqMsg C n idx v' w' = eqMsg C n idx v w := by
  rw [← eqMsg_obs, hv, hw, eqMsg_obs]

/-! ## The sign of zero -/

theorem f32Eq_iff (a b : BitVec 32) : f32Eq a b = true ↔ FloatEqual 8 23 a.toNat b.toNat := by
  refine (C29_eq_f32 Target.release64 a b).trans ?_
  unfold FloatEqual
  rw [BitVec.toNat_inj]
  exact Iff.rfl

theorem f64Eq_iff (a b : BitVec 64) : f64Eq a b = true ↔ FloatEqual 11 52 a.toNat b.toNat := by
  refine (C29_eq_f64 Target.release64 a b).trans ?_
  unfold FloatEqual
  rw [BitVec.toNat_inj]
  exact Iff.rfl

theorem f32Eq_zeros (y : BitVec 32) : f32Eq 0#32 y = f32Eq 0x80000000#32 y := by
  rw [Bool.eq_iff_iff, f32Eq_iff, f32Eq_iff]
  have := y.isLt
  unfold FloatEqual IsNanBits
  generalize y.toNat = z at this ⊢
  simp only [BitVec.toNat_ofNat, Nat.reducePow, Nat.reduceMod, Nat.reduceAdd, Nat.reduceDiv, Nat.reduceSub] at this ⊢
  constructor
  · rintro ⟨-, h, k⟩
    refine ⟨by omega, h, Or.inr ⟨trivial, ?_⟩⟩
    rcases k with k | ⟨-, k⟩ <;> omega
  · rintro ⟨-, h, k⟩
    refine ⟨by omega, h, Or.inr ⟨trivial, ?_⟩⟩
    rcases k with k | ⟨-, k⟩ <;> omega

theorem f64Eq_zeros (y : BitVec 64) : f64Eq 0#64 y = f64Eq 0x8000000000000000#64 y := by
  rw [Bool.eq_iff_iff, f64Eq_iff, f64Eq_iff]
  have := y.isLt
  unfold FloatEqual IsNanBits
  generalize y.toNat = z at this ⊢
  simp only [BitVec.toNat_ofNat, Nat.reducePow, Nat.reduceMod, Nat.reduceAdd, Nat.reduceDiv, Nat.reduceSub] at this ⊢
  constructor
  · rintro ⟨-, h, k⟩
    refine ⟨by omega, h, Or.inr ⟨trivial, ?_⟩⟩
    rcases k with k | ⟨-, k⟩ <;> omega
  · rintro ⟨-, h, k⟩
    refine ⟨by omega, h, Or.inr ⟨trivial, ?_⟩⟩
    rcases k with k | ⟨-, k⟩ <;> omega

theorem scalarEq_unsign (t : FieldType) (a b : RVal) : scalarEq t (unsignScalar t a) b = scalarEq t a b := by
  unfold unsignScalar
  split
  · rename_i x
    by_cases h : x = 0x80000000#32
    · subst h
      cases b <;> first | rfl | (simp only [scalarEq, if_true]; exact f32Eq_zeros _)
    · rw [if_neg h]
  · rename_i x
    by_cases h : x = 0x8000000000000000#64
    · subst h
      cases b <;> first | rfl | (simp only [scalarEq, if_true]; exact f64Eq_zeros _)
    · rw [if_neg h]
  · rfl

theorem eqSeq_left {α : Type} {eq : α → α → Bool} {g : α → α} :
    ∀ l l' : List α, (∀ a ∈ l, ∀ b, eq (g a) b = eq a b) → eqSeq eq (l.map g) l' = eqSeq eq l l'
  | [], [], _ => rfl
  | [], _ :: _, _ => rfl
  | _ :: _, [], _ => rfl
  | a :: l, b :: l', h => by
    rw [List.map_cons, eqSeq, eqSeq, h a (by simp), eqSeq_left l l' fun x hx => h x (by simp [hx])]

theorem mapGet_key {k k' : RVal} (h : ∀ w, keyEq w k' = keyEq w k) : ∀ l, mapGet k' l = mapGet k l
  | [] => rfl
  | (q, v) :: l => by rw [mapGet, mapGet, h, mapGet_key h l]

theorem eqMap_left {eq : RVal → RVal → Bool} {g : RVal × RVal → RVal × RVal} (l l' : List (RVal × RVal))
    (hk : ∀ e ∈ l, ∀ w, keyEq w (g e).1 = keyEq w e.1) (hv : ∀ e ∈ l, ∀ b, eq (g e).2 b = eq e.2 b) :
    eqMap eq (l.map g) l' = eqMap eq l l' := by
  unfold eqMap
  rw [List.length_map, List.all_map]
  refine congrArg (fun x => (l.length == l'.length) && x) ?_
  rw [Bool.eq_iff_iff, List.all_eq_true, List.all_eq_true]
  refine forall_congr' fun e => forall_congr' fun he => ?_
  simp only [Function.comp]
  rw [mapGet_key (hk e he)]
  cases mapGet e.1 l' with
  | none => rfl
  | some v => simp only [hv e he]

section
variable {C : Ctx} {s : MessageIndex → RVal → Prop} {u : MessageIndex → RVal → RVal} {sub : MessageIndex → RVal → RVal → Bool}
  (hu : ∀ i v w, s i v → sub i (u i v) w = sub i v w)
include hu

theorem eqTyp_unsign {t : FieldType} {v : RVal} (h : HasType C s t v) (w : RVal) : eqTyp sub t (unsignTyp u t v) w = eqTyp sub t v w := by
  cases t <;> first | rfl | exact hu _ _ _ h

theorem eqMember_unsign (hk : ∀ i v w, s i v → keyEq w (u i v) = keyEq w v) {mem : Member} {v : RVal}
    (h : MemberTyped C AnyValue s mem v) (w : RVal) : eqMember sub mem (unsignMember u mem v) w = eqMember sub mem v w := by
  cases mem with
  | oneof fs =>
    rcases h with rfl | ⟨i, f, x, h1, rfl, h3⟩
    · rfl
    · simp only [unsignMember, h1]
      cases w <;> first | rfl | skip
      rename_i j y
      simp only [eqMember, h1]
      rw [eqTyp_unsign hu h3]
  | field f =>
    simp only [MemberTyped, FieldTyped, unsignMember, eqMember, eqField] at h ⊢
    cases hg : f.frequency.generated with
    | singular =>
      rw [hg] at h
      simp only at h ⊢
      by_cases ho : f.frequency.isOptional = true
      · simp only [ho, if_true] at h ⊢
        rcases h with rfl | ⟨x, rfl, hx⟩
        · rfl
        · cases w <;> first | rfl | exact eqTyp_unsign hu hx _
      · simp only [ho] at h ⊢
        by_cases hp : f.hasPresence = true
        · simp only [hp, if_true]
          exact eqTyp_unsign hu h.1 w
        · simp only [hp]
          have hnm := not_message_of_noPresence hg (by simpa using hp)
          have : ∀ t : FieldType, (∀ i, t ≠ .message i) → ∀ a b, eqTyp sub t a b = scalarEq t a b := by
            intro t ht a b
            cases t <;> first | rfl | exact (ht _ rfl).elim
          show eqTyp sub f.typ (unsignScalar f.typ v) w = eqTyp sub f.typ v w
          rw [this _ hnm, this _ hnm, scalarEq_unsign]
    | arrayLike =>
      rw [hg] at h
      simp only at h ⊢
      by_cases hpf : isPackedFixed f = true
      · simp only [hpf, if_true] at h
        by_cases hw : f.typ.wireTypeNumNonPacked = 1
        · simp only [hw, if_true] at h
          obtain ⟨p, rfl, hp⟩ := h
          rfl
        · simp only [hw, if_false] at h
          obtain ⟨p, rfl, hp⟩ := h
          rfl
      · simp only [hpf] at h
        obtain ⟨l, rfl, hl⟩ := h
        cases w <;> first | rfl | exact eqSeq_left _ _ fun a ha b => eqTyp_unsign hu (hl a ha) b
    | map =>
      rw [hg] at h
      simp only at h ⊢
      obtain ⟨k, t, l, ht, rfl, hl, hpw⟩ := h
      rw [ht]
      cases w <;> first | rfl | skip
      refine eqMap_left _ _ (fun e he w => ?_) fun e he b => eqTyp_unsign hu (hl e he).2 b
      have := (hl e he).1
      cases k <;> first | rfl | exact hk _ _ _ this

end

theorem eqMembers_left {eq : Member → RVal → RVal → Bool} {g : Member → RVal → RVal} :
    ∀ (ms : List Member) (l l' : List RVal), l.length = ms.length →
      (∀ p ∈ ms.zip l, ∀ b, eq p.1 (g p.1 p.2) b = eq p.1 p.2 b) →
      eqMembers eq ms (List.zipWith g ms l) l' = eqMembers eq ms l l'
  | [], [], _, _, _ => rfl
  | [], _ :: _, _, h, _ => by cases h
  | _ :: _, [], _, h, _ => by cases h
  | m :: ms, a :: l, [], _, _ => rfl
  | m :: ms, a :: l, b :: l', hl, h => by
    simp only [List.zipWith_cons_cons, eqMembers]
    rw [h (m, a) (by simp), eqMembers_left ms l l' (by simpa using hl) fun p hp => h p (by simp [hp])]

/-- The sign of zeros in fields without presence cannot be told apart by `==`. -/
theorem eqMsg_unsign (C : Ctx) (n : Nat) : ∀ idx v w, WellTyped C AnyValue n idx v → eqMsg C n idx (unsign C n idx v) w = eqMsg C n idx v w := by
  induction n with
  | zero => intro _ _ _ h; exact h.elim
  | succ n ih =>
    rintro idx v w ⟨m, slots, hm, rfl, hlen, hmem⟩
    simp only [eqMsg, unsign, hm, RVal.slots]
    refine eqMembers_left _ _ _ hlen fun p hp b => eqMember_unsign ih ?_ (hmem p hp) b
    intro i v w h
    cases n with
    | zero => exact h.elim
    | succ n =>
      obtain ⟨m', s', hm', rfl, _⟩ := h
      simp only [unsign, hm']
      cases w <;> rfl

end QP.Gen
