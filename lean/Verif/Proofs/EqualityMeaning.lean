import Verif.Proofs.Equality
import Mathlib.Data.List.Perm.Basic
import Batteries.Data.List.Perm
set_option linter.unusedVariables false
/-!
# `==` on generated messages: what it means (proofs)
-/

namespace QP.Gen
open QP.Pbrs

theorem eqSeq_iff {α : Type} {eq : α → α → Bool} {R : α → α → Prop} :
    ∀ l l' : List α, (∀ a ∈ l, ∀ b ∈ l', eq a b = true ↔ R a b) → (eqSeq eq l l' = true ↔ List.Forall₂ R l l')
  | [], [], _ => by simp [eqSeq]
  | [], _ :: _, _ => by simp [eqSeq]
  | _ :: _, [], _ => by simp [eqSeq]
  | a :: l, b :: l', h => by
    rw [eqSeq, Bool.and_eq_true, List.forall₂_cons, h a (by simp) b (by simp),
      eqSeq_iff l l' fun x hx y hy => h x (by simp [hx]) y (by simp [hy])]

theorem eqMembers_iff {eq : Member → RVal → RVal → Bool} : ∀ (ms : List Member) (l l' : List RVal), l.length = ms.length → l'.length = ms.length →
    (eqMembers eq ms l l' = true ↔ ∀ (j : Nat) mem a b, ms[j]? = Option.some mem → l[j]? = Option.some a → l'[j]? = Option.some b → eq mem a b = true)
  | [], [], [], _, _ => by simp [eqMembers]
  | [], _ :: _, _, h, _ => by cases h
  | [], [], _ :: _, _, h => by cases h
  | _ :: _, [], _, h, _ => by cases h
  | _ :: _, _ :: _, [], _, h => by cases h
  | m :: ms, a :: l, b :: l', h1, h2 => by
    rw [eqMembers, Bool.and_eq_true, eqMembers_iff ms l l' (by simpa using h1) (by simpa using h2)]
    constructor
    · rintro ⟨h, hr⟩ j mem x y e1 e2 e3
      cases j with
      | zero => cases e1; cases e2; cases e3; exact h
      | succ j => exact hr j mem x y e1 e2 e3
    · intro h
      exact ⟨h 0 m a b rfl rfl rfl, fun j mem x y e1 e2 e3 => h (j + 1) mem x y e1 e2 e3⟩

section
variable {C : Ctx} {s : MessageIndex → RVal → Prop}

theorem scalarEq_iff {t : FieldType} {a b : RVal} (ht : ∀ i, t ≠ .message i) (ha : HasType C s t a) (hb : HasType C s t b) :
    scalarEq t a b = true ↔ ScalarEqual t a b := by
  cases t <;> simp only [HasType] at ha hb <;>
    first
    | exact (ht _ rfl).elim
    | (exact ha.elim)
    | (obtain ⟨x, rfl⟩ := ha; obtain ⟨y, rfl⟩ := hb; exact f32Eq_iff x y)
    | (obtain ⟨x, rfl⟩ := ha; obtain ⟨y, rfl⟩ := hb; exact f64Eq_iff x y)
    | (obtain ⟨x, rfl⟩ := ha; obtain ⟨y, rfl⟩ := hb; simp [scalarEq, ScalarEqual])
    | (obtain ⟨x, rfl, -⟩ := ha; obtain ⟨y, rfl, -⟩ := hb; simp [scalarEq, ScalarEqual])

theorem keyEq_iff {t : FieldType} {a b : RVal} (ht : ∀ i, t ≠ .message i) (ha : HasType C s t a) (hb : HasType C s t b) :
    keyEq a b = true ↔ a = b := by
  cases t <;> simp only [HasType] at ha hb <;>
    first
    | exact (ht _ rfl).elim
    | (exact ha.elim)
    | (obtain ⟨x, rfl⟩ := ha; obtain ⟨y, rfl⟩ := hb; simp [scalarEq, keyEq])
    | (obtain ⟨x, rfl, -⟩ := ha; obtain ⟨y, rfl, -⟩ := hb; simp [scalarEq, keyEq])

theorem mapGet_mem {k v : RVal} : ∀ {l : List (RVal × RVal)}, mapGet k l = Option.some v → ∃ k', keyEq k' k = true ∧ (k', v) ∈ l
  | [], h => by cases h
  | (k', v') :: l, h => by
    rw [mapGet] at h
    split at h
    · rename_i hk
      cases h
      exact ⟨k', hk, by simp⟩
    · obtain ⟨q, h1, h2⟩ := mapGet_mem h
      exact ⟨q, h1, by simp [h2]⟩

theorem mapGet_of_mem {k k' v : RVal} (hk : keyEq k' k = true) :
    ∀ {l : List (RVal × RVal)}, (∀ e ∈ l, keyEq e.1 k = true → e = (k', v)) → (k', v) ∈ l → mapGet k l = Option.some v
  | [], _, h => by cases h
  | (q, w) :: l, hu, h => by
    rw [mapGet]
    by_cases hq : keyEq q k = true
    · rw [if_pos hq]
      have := hu (q, w) (by simp) hq
      cases this
      rfl
    · rw [if_neg hq]
      refine mapGet_of_mem hk (fun e he => hu e (by simp [he])) ?_
      rcases List.mem_cons.mp h with e | e
      · cases e; exact (hq hk).elim
      · exact e

theorem distinct_keys {l' : List (RVal × RVal)} {K V : RVal → Prop} (hK : ∀ a b, K a → K b → (keyEq a b = true ↔ a = b))
    (hl' : ∀ e ∈ l', K e.1 ∧ V e.2) (hd' : l'.Pairwise fun a b => keyEq a.1 b.1 = false) : ∀ e ∈ l', ∀ e' ∈ l', e.1 = e'.1 → e = e' := by
  intro e he e' he' h
  by_contra hne
  have hsym : ∀ a b : RVal × RVal, a ∈ l' → b ∈ l' → keyEq a.1 b.1 = false → keyEq b.1 a.1 = false := by
    intro a b ha hb hab
    rw [Bool.eq_false_iff] at hab ⊢
    intro hc
    exact hab ((hK _ _ (hl' a ha).1 (hl' b hb).1).mpr ((hK _ _ (hl' b hb).1 (hl' a ha).1).mp hc).symm)
  obtain ⟨i, hi⟩ := List.mem_iff_getElem?.mp he
  obtain ⟨j, hj⟩ := List.mem_iff_getElem?.mp he'
  have hij : i ≠ j := by rintro rfl; rw [hi] at hj; cases hj; exact hne rfl
  have key : keyEq e.1 e'.1 = false := by
    obtain ⟨hi', hie⟩ := List.getElem?_eq_some_iff.mp hi
    obtain ⟨hj', hje⟩ := List.getElem?_eq_some_iff.mp hj
    rw [List.pairwise_iff_getElem] at hd'
    rcases Nat.lt_or_gt_of_ne hij with hlt | hlt
    · have := hd' i j hi' hj' hlt
      rw [hie, hje] at this; exact this
    · have := hd' j i hj' hi' hlt
      rw [hie, hje] at this
      exact hsym _ _ he' he this
  rw [(hK _ _ (hl' e he).1 (hl' e' he').1).mpr h] at key
  cases key

theorem eqMap_iff {eq : RVal → RVal → Bool} {R : RVal → RVal → Prop} {l l' : List (RVal × RVal)} {K V : RVal → Prop}
    (hK : ∀ a b, K a → K b → (keyEq a b = true ↔ a = b)) (hV : ∀ a b, V a → V b → (eq a b = true ↔ R a b))
    (hl : ∀ e ∈ l, K e.1 ∧ V e.2) (hl' : ∀ e ∈ l', K e.1 ∧ V e.2)
    (hd : l.Pairwise fun a b => keyEq a.1 b.1 = false) (hd' : l'.Pairwise fun a b => keyEq a.1 b.1 = false) :
    eqMap eq l l' = true ↔ EqualMaps R l l' := by
  have inj := distinct_keys hK hl' hd'
  unfold eqMap
  rw [Bool.and_eq_true, beq_iff_eq, List.all_eq_true]
  constructor
  · rintro ⟨hlen, hall⟩
    have hget : ∀ e ∈ l, ∃ v, mapGet e.1 l' = Option.some v ∧ (e.1, v) ∈ l' ∧ R e.2 v := by
      intro e he
      have := hall e he
      cases hg : mapGet e.1 l' with
      | none => rw [hg] at this; cases this
      | some v =>
        rw [hg] at this
        obtain ⟨k', hk, hm⟩ := mapGet_mem hg
        have hk' := (hK _ _ (hl' _ hm).1 (hl e he).1).mp hk
        simp only at hk'
        rw [hk'] at hm
        exact ⟨v, rfl, hm, (hV _ _ (hl e he).2 (hl' _ hm).2).mp this⟩
    refine ⟨l.map fun e => (e.1, (mapGet e.1 l').getD .none), ?_, ?_⟩
    · refine (List.subperm_of_subset ?_ ?_).perm_of_length_le (by rw [List.length_map]; omega)
      · rw [List.Nodup, List.pairwise_map]
        refine hd.imp_of_mem fun {a b} ha hb hab h => ?_
        rw [(hK _ _ (hl a ha).1 (hl b hb).1).mpr (Prod.mk.inj h).1] at hab
        cases hab
      · intro x hx
        obtain ⟨e, he, rfl⟩ := List.mem_map.mp hx
        obtain ⟨v, h1, h2, -⟩ := hget e he
        simp only [h1, Option.getD_some]
        exact h2
    · rw [List.forall₂_map_right_iff, List.forall₂_same]
      intro e he
      obtain ⟨v, h1, -, h3⟩ := hget e he
      simp only [h1, Option.getD_some]
      exact ⟨trivial, h3⟩
  · rintro ⟨l₁, hp, hf⟩
    refine ⟨hf.length_eq.trans hp.length_eq, fun e he => ?_⟩
    obtain ⟨e', he', h1, h2⟩ : ∃ e' ∈ l₁, e.1 = e'.1 ∧ R e.2 e'.2 := by
      clear hp hd hl
      induction hf with
      | nil => cases he
      | cons h hf ih =>
        rcases List.mem_cons.mp he with rfl | he
        · exact ⟨_, by simp, h⟩
        · obtain ⟨e', h1, h2⟩ := ih he
          exact ⟨e', by simp [h1], h2⟩
    have hm : e' ∈ l' := hp.mem_iff.mp he'
    have hk : keyEq e'.1 e.1 = true := (hK _ _ (hl' e' hm).1 (hl e he).1).mpr h1.symm
    have : mapGet e.1 l' = Option.some e'.2 := by
      refine mapGet_of_mem (k' := e'.1) hk (fun q hq hqk => ?_) hm
      exact inj q hq e' hm (((hK _ _ (hl' q hq).1 (hl e he).1).mp hqk).trans h1)
    rw [this]
    exact (hV _ _ (hl e he).2 (hl' e' hm).2).mpr h2

variable {eq : MessageIndex → RVal → RVal → Bool} {R : MessageIndex → RVal → RVal → Prop}
  (hs : ∀ i a b, s i a → s i b → (eq i a b = true ↔ R i a b))
include hs

theorem eqTyp_iff {t : FieldType} {a b : RVal} (ha : HasType C s t a) (hb : HasType C s t b) : eqTyp eq t a b = true ↔ EqualTyp R t a b := by
  by_cases ht : ∃ i, t = .message i
  · obtain ⟨i, rfl⟩ := ht
    exact hs i a b ha hb
  · have ht' : ∀ i, t ≠ .message i := fun i h => ht ⟨i, h⟩
    have h1 : eqTyp eq t a b = scalarEq t a b := by cases t <;> first | rfl | exact (ht' _ rfl).elim
    have h2 : EqualTyp R t a b = ScalarEqual t a b := by cases t <;> first | rfl | exact (ht' _ rfl).elim
    rw [h1, h2]
    exact scalarEq_iff ht' ha hb

theorem eqMember_iff {mem : Member} (hk : ∀ f, mem = .field f → ∀ k t, f.typ = .map k t → ∀ i, k ≠ .message i) {a b : RVal}
    (ha : MemberTyped C AnyValue s mem a) (hb : MemberTyped C AnyValue s mem b) : eqMember eq mem a b = true ↔ EqualMember R mem a b := by
  cases mem with
  | oneof fs =>
    simp only [EqualMember]
    rcases ha with rfl | ⟨i, f, x, h1, rfl, h3⟩ <;> rcases hb with rfl | ⟨j, g, y, h1', rfl, h3'⟩
    · simp [eqMember]
    · simp [eqMember]
    · simp [eqMember]
    · simp only [eqMember, h1, Bool.and_eq_true, beq_iff_eq]
      constructor
      · rintro ⟨rfl, h⟩
        rw [h1] at h1'; cases h1'
        exact Or.inr ⟨i, f, x, y, h1, rfl, rfl, (eqTyp_iff hs h3 h3').mp h⟩
      · rintro (⟨h, -⟩ | ⟨i', f', x', y', h4, h5, h6, h7⟩)
        · cases h
        · cases h5; cases h6
          rw [h1] at h1'; cases h1'
          rw [h1] at h4; cases h4
          exact ⟨rfl, (eqTyp_iff hs h3 h3').mpr h7⟩
  | field f =>
    simp only [MemberTyped, FieldTyped, EqualMember, eqMember, eqField] at ha hb ⊢
    cases hg : f.frequency.generated with
    | singular =>
      rw [hg] at ha hb
      simp only at ha hb ⊢
      by_cases ho : f.frequency.isOptional = true
      · simp only [ho, if_true] at ha hb ⊢
        rcases ha with rfl | ⟨x, rfl, hx⟩ <;> rcases hb with rfl | ⟨y, rfl, hy⟩
        · simp
        · simp
        · simp
        · simp only [reduceCtorEq, false_and, false_or, RVal.some.injEq]
          rw [eqTyp_iff hs hx hy]
          exact ⟨fun h => ⟨x, y, rfl, rfl, h⟩, fun ⟨_, _, h1, h2, h3⟩ => by subst h1; subst h2; exact h3⟩
      · simp only [ho] at ha hb ⊢
        exact eqTyp_iff hs ha.1 hb.1
    | arrayLike =>
      rw [hg] at ha hb
      simp only at ha hb ⊢
      by_cases hpf : isPackedFixed f = true
      · simp only [hpf, if_true] at ha hb
        by_cases hw : f.typ.wireTypeNumNonPacked = 1
        · simp only [hw, if_true] at ha hb
          obtain ⟨p, rfl, hp⟩ := ha
          obtain ⟨q, rfl, hq⟩ := hb
          simp only [reduceCtorEq, false_and, exists_false, false_or, or_false, RVal.pf64.injEq]
          rw [eqSeq_iff (R := fun x y => ScalarEqual f.typ (.w64 x) (.w64 y))]
          · exact ⟨fun h => ⟨p, q, rfl, rfl, h⟩, fun ⟨_, _, h1, h2, h3⟩ => by subst h1; subst h2; exact h3⟩
          · intro x _ y _
            cases f.typ <;> first | exact f64Eq_iff x y | simp [ScalarEqual]
        · simp only [hw, if_false] at ha hb
          obtain ⟨p, rfl, hp⟩ := ha
          obtain ⟨q, rfl, hq⟩ := hb
          simp only [reduceCtorEq, false_and, exists_false, false_or, or_false, RVal.pf32.injEq]
          rw [eqSeq_iff (R := fun x y => ScalarEqual f.typ (.w32 x) (.w32 y))]
          · exact ⟨fun h => ⟨p, q, rfl, rfl, h⟩, fun ⟨_, _, h1, h2, h3⟩ => by subst h1; subst h2; exact h3⟩
          · intro x _ y _
            cases f.typ <;> first | exact f32Eq_iff x y | simp [ScalarEqual]
      · simp only [hpf] at ha hb
        obtain ⟨l, rfl, hl⟩ := ha
        obtain ⟨l', rfl, hl'⟩ := hb
        simp only [reduceCtorEq, false_and, exists_false, false_or, or_false, RVal.vec.injEq]
        rw [eqSeq_iff (R := EqualTyp R f.typ) l l' fun x hx y hy => eqTyp_iff hs (hl x hx) (hl' y hy)]
        exact ⟨fun h => ⟨l, l', rfl, rfl, h⟩, fun ⟨_, _, h1, h2, h3⟩ => by subst h1; subst h2; exact h3⟩
    | map =>
      rw [hg] at ha hb
      simp only at ha hb ⊢
      obtain ⟨k, t, l, ht, rfl, hl, hpw⟩ := ha
      obtain ⟨k', t', l', ht', rfl, hl', hpw'⟩ := hb
      rw [ht] at ht'; cases ht'
      rw [ht]
      have hkm := hk f rfl k t ht
      simp only
      rw [eqMap_iff (R := EqualTyp R t) (K := HasType C s k) (V := HasType C s t) (fun a b h1 h2 => keyEq_iff hkm h1 h2)
        (fun a b h1 h2 => eqTyp_iff hs h1 h2) hl hl' hpw hpw']
      constructor
      · intro h; exact ⟨k, t, l, l', rfl, rfl, rfl, h⟩
      · rintro ⟨_, _, _, _, h1, h2, h3, h4⟩
        cases h1; cases h2; cases h3
        exact h4

end

/-- `==` decides `Equal`. -/
theorem eqMsg_iff (C : Ctx) (hK : ScalarKeys C) (n : Nat) : ∀ idx v w, WellTyped C AnyValue n idx v → WellTyped C AnyValue n idx w →
    (eqMsg C n idx v w = true ↔ Equal C n idx v w) := by
  induction n with
  | zero => intro _ _ _ h; exact h.elim
  | succ n ih =>
    rintro idx v w ⟨m, slots, hm, rfl, hlen, hmem⟩ ⟨m', slots', hm', rfl, hlen', hmem'⟩
    rw [hm] at hm'; cases hm'
    simp only [eqMsg, hm, Equal, RVal.slots]
    rw [eqMembers_iff _ _ _ hlen hlen']
    have key : ∀ (j : Nat) mem a b, (members C.cfg m)[j]? = Option.some mem → slots[j]? = Option.some a → slots'[j]? = Option.some b →
        (eqMember (eqMsg C n) mem a b = true ↔ EqualMember (Equal C n) mem a b) := by
      intro j mem a b h1 h2 h3
      refine eqMember_iff ih ?_ (hmem (mem, a) ?_) (hmem' (mem, b) ?_)
      · rintro f rfl
        exact hK idx m hm f (List.mem_of_getElem? h1)
      · exact List.mem_of_getElem? (List.getElem?_zip_eq_some.mpr ⟨h1, h2⟩)
      · exact List.mem_of_getElem? (List.getElem?_zip_eq_some.mpr ⟨h1, h3⟩)
    constructor
    · intro h
      exact ⟨m, rfl, hlen.trans hlen'.symm, fun j mem a b h1 h2 h3 => (key j mem a b h1 h2 h3).mp (h j mem a b h1 h2 h3)⟩
    · rintro ⟨_, h0, -, h⟩ j mem a b h1 h2 h3
      cases h0
      exact (key j mem a b h1 h2 h3).mpr (h j mem a b h1 h2 h3)

end QP.Gen
