import Verif.Proofs.EqualityMeaning
set_option linter.unusedVariables false
/-!
# `==` on generated messages: laws (proofs)
-/

namespace QP.Gen
open QP.Pbrs Relation

/-! ## Symmetry -/

theorem FloatEqual.symm {e m a b : Nat} (h : FloatEqual e m a b) : FloatEqual e m b a :=
  ⟨h.2.1, h.1, h.2.2.imp Eq.symm And.symm⟩

theorem ScalarEqual.symm {t : FieldType} {a b : RVal} (h : ScalarEqual t a b) : ScalarEqual t b a := by
  cases t <;> first
    | exact Eq.symm h
    | (cases a <;> cases b <;> first | exact FloatEqual.symm h | exact Eq.symm h)

theorem equalTyp_scalar {R : MessageIndex → RVal → RVal → Prop} {t : FieldType} (ht : ∀ i, t ≠ .message i) (a b : RVal) :
    EqualTyp R t a b = ScalarEqual t a b := by
  cases t <;> first | rfl | exact (ht _ rfl).elim

theorem forall₂_flip {α : Type} {R S : α → α → Prop} (h : ∀ a b, R a b → S b a) {l l' : List α} (hf : List.Forall₂ R l l') : List.Forall₂ S l' l := by
  induction hf with
  | nil => exact .nil
  | cons hab _ ih => exact .cons (h _ _ hab) ih

theorem EqualMaps.symm {R : RVal → RVal → Prop} (hR : ∀ a b, R a b → R b a) {l l' : List (RVal × RVal)} (h : EqualMaps R l l') :
    EqualMaps R l' l := by
  obtain ⟨l₁, hp, hf⟩ := h
  have hc : Relation.Comp List.Perm (List.Forall₂ (fun e e' : RVal × RVal => e.1 = e'.1 ∧ R e.2 e'.2)) l' l :=
    ⟨l₁, hp.symm, forall₂_flip (fun a b h => ⟨h.1.symm, hR _ _ h.2⟩) hf⟩
  rw [← List.forall₂_comp_perm_eq_perm_comp_forall₂] at hc
  obtain ⟨l₂, h1, h2⟩ := hc
  exact ⟨l₂, h2, h1⟩

theorem EqualTyp.symm {R : MessageIndex → RVal → RVal → Prop} (hR : ∀ i a b, R i a b → R i b a) {t : FieldType} {a b : RVal}
    (h : EqualTyp R t a b) : EqualTyp R t b a := by
  by_cases ht : ∃ i, t = .message i
  · obtain ⟨i, rfl⟩ := ht
    exact hR i a b h
  · have ht' : ∀ i, t ≠ .message i := fun i h => ht ⟨i, h⟩
    rw [equalTyp_scalar ht'] at h ⊢
    exact h.symm

theorem EqualMember.symm {R : MessageIndex → RVal → RVal → Prop} (hR : ∀ i a b, R i a b → R i b a) {mem : Member} {a b : RVal}
    (h : EqualMember R mem a b) : EqualMember R mem b a := by
  cases mem with
  | oneof fs =>
    rcases h with ⟨h1, h2⟩ | ⟨i, f, x, y, h1, h2, h3, h4⟩
    · exact Or.inl ⟨h2, h1⟩
    · exact Or.inr ⟨i, f, y, x, h1, h3, h2, h4.symm hR⟩
  | field f =>
    simp only [EqualMember] at h ⊢
    cases hg : f.frequency.generated <;> simp only [hg] at h ⊢
    · split at h
      · rename_i ho
        rw [if_pos ho]
        rcases h with ⟨h1, h2⟩ | ⟨x, y, h1, h2, h3⟩
        · exact Or.inl ⟨h2, h1⟩
        · exact Or.inr ⟨y, x, h2, h1, h3.symm hR⟩
      · rename_i ho
        rw [if_neg ho]
        exact h.symm hR
    · rcases h with ⟨p, q, h1, h2, h3⟩ | ⟨p, q, h1, h2, h3⟩ | ⟨l, l', h1, h2, h3⟩
      · exact Or.inl ⟨q, p, h2, h1, forall₂_flip (fun _ _ h => ScalarEqual.symm h) h3⟩
      · exact Or.inr (Or.inl ⟨q, p, h2, h1, forall₂_flip (fun _ _ h => ScalarEqual.symm h) h3⟩)
      · exact Or.inr (Or.inr ⟨l', l, h2, h1, forall₂_flip (fun _ _ h => EqualTyp.symm hR h) h3⟩)
    · obtain ⟨k, t, l, l', h1, h2, h3, h4⟩ := h
      exact ⟨k, t, l', l, h1, h3, h2, h4.symm fun a b => EqualTyp.symm hR⟩

theorem Equal.symm (C : Ctx) (n : Nat) : ∀ idx v w, Equal C n idx v w → Equal C n idx w v := by
  induction n with
  | zero => intro _ _ _ h; exact h
  | succ n ih =>
    rintro idx v w ⟨m, hm, hl, h⟩
    exact ⟨m, hm, hl.symm, fun j mem a b h1 h2 h3 => (h j mem b a h1 h3 h2).symm ih⟩

/-! ## Transitivity -/

theorem FloatEqual.trans {e m a b c : Nat} (h : FloatEqual e m a b) (k : FloatEqual e m b c) : FloatEqual e m a c := by
  refine ⟨h.1, k.2.1, ?_⟩
  rcases h.2.2 with rfl | ⟨h1, h2⟩
  · exact k.2.2
  · rcases k.2.2 with rfl | ⟨h3, h4⟩
    · exact Or.inr ⟨h1, h2⟩
    · exact Or.inr ⟨h1, h4⟩

theorem ScalarEqual.trans {t : FieldType} {a b c : RVal} (h : ScalarEqual t a b) (k : ScalarEqual t b c) : ScalarEqual t a c := by
  cases t <;> first
    | exact Eq.trans h k
    | (cases a <;> cases b <;> cases c <;>
        first | exact FloatEqual.trans h k | exact Eq.trans h k | (cases h; done) | (cases k; done) | (cases h; exact k) | (cases k; exact h))

theorem forall₂_comp {α : Type} {R S T : α → α → Prop} (h : ∀ a b c, R a b → S b c → T a c) {l l' l'' : List α} (h1 : List.Forall₂ R l l')
    (h2 : List.Forall₂ S l' l'') : List.Forall₂ T l l'' := by
  induction h1 generalizing l'' with
  | nil => cases h2; exact .nil
  | cons hab _ ih =>
    cases h2 with
    | cons hbc h2 => exact .cons (h _ _ _ hab hbc) (ih h2)

theorem EqualMaps.trans {R : RVal → RVal → Prop} (hR : ∀ a b c, R a b → R b c → R a c) {l l' l'' : List (RVal × RVal)} (h : EqualMaps R l l')
    (k : EqualMaps R l' l'') : EqualMaps R l l'' := by
  obtain ⟨l₁, hp, hf⟩ := h
  obtain ⟨l₂, hp', hf'⟩ := k
  have hc : Relation.Comp List.Perm (List.Forall₂ (fun e e' : RVal × RVal => e.1 = e'.1 ∧ R e.2 e'.2)) l₁ l₂ := ⟨l', hp, hf'⟩
  rw [← List.forall₂_comp_perm_eq_perm_comp_forall₂] at hc
  obtain ⟨l₃, h1, h2⟩ := hc
  exact ⟨l₃, h2.trans hp', forall₂_comp (fun _ _ _ a b => ⟨a.1.trans b.1, hR _ _ _ a.2 b.2⟩) hf h1⟩

theorem EqualTyp.trans {R : MessageIndex → RVal → RVal → Prop} (hR : ∀ i a b c, R i a b → R i b c → R i a c) {t : FieldType} {a b c : RVal}
    (h : EqualTyp R t a b) (k : EqualTyp R t b c) : EqualTyp R t a c := by
  by_cases ht : ∃ i, t = .message i
  · obtain ⟨i, rfl⟩ := ht
    exact hR i a b c h k
  · have ht' : ∀ i, t ≠ .message i := fun i h => ht ⟨i, h⟩
    rw [equalTyp_scalar ht'] at h k ⊢
    exact h.trans k

theorem EqualMember.trans {R : MessageIndex → RVal → RVal → Prop} (hR : ∀ i a b c, R i a b → R i b c → R i a c) {mem : Member} {a b c : RVal}
    (h : EqualMember R mem a b) (g : EqualMember R mem b c) : EqualMember R mem a c := by
  cases mem with
  | oneof fs =>
    rcases h with ⟨h1, h2⟩ | ⟨i, f, x, y, h1, h2, h3, h4⟩ <;> rcases g with ⟨g1, g2⟩ | ⟨j, f', x', y', g1, g2, g3, g4⟩
    · exact Or.inl ⟨h1, g2⟩
    · rw [h2] at g2; cases g2
    · rw [h3] at g1; cases g1
    · rw [h3] at g2; cases g2
      rw [h1] at g1; cases g1
      exact Or.inr ⟨i, f, x, y', h1, h2, g3, h4.trans hR g4⟩
  | field f =>
    simp only [EqualMember] at h g ⊢
    cases hg : f.frequency.generated <;> simp only [hg] at h g ⊢
    · split at h
      · rename_i ho
        rw [if_pos ho] at g ⊢
        rcases h with ⟨h1, h2⟩ | ⟨x, y, h1, h2, h3⟩ <;> rcases g with ⟨g1, g2⟩ | ⟨x', y', g1, g2, g3⟩
        · exact Or.inl ⟨h1, g2⟩
        · rw [h2] at g1; cases g1
        · rw [h2] at g1; cases g1
        · rw [h2] at g1; cases g1
          exact Or.inr ⟨x, y', h1, g2, h3.trans hR g3⟩
      · rename_i ho
        rw [if_neg ho] at g ⊢
        exact h.trans hR g
    · rcases h with ⟨p, q, h1, h2, h3⟩ | ⟨p, q, h1, h2, h3⟩ | ⟨p, q, h1, h2, h3⟩ <;>
        rcases g with ⟨p', q', g1, g2, g3⟩ | ⟨p', q', g1, g2, g3⟩ | ⟨p', q', g1, g2, g3⟩ <;>
        (rw [h2] at g1; cases g1)
      · exact Or.inl ⟨p, q', h1, g2, (by refine forall₂_comp (fun a b c h g => ?_) h3 g3; exact ScalarEqual.trans h g)⟩
      · exact Or.inr (Or.inl ⟨p, q', h1, g2, (by refine forall₂_comp (fun a b c h g => ?_) h3 g3; exact ScalarEqual.trans h g)⟩)
      · exact Or.inr (Or.inr ⟨p, q', h1, g2, (by refine forall₂_comp (fun a b c h g => ?_) h3 g3; exact EqualTyp.trans hR h g)⟩)
    · obtain ⟨k, t, l, l', h1, h2, h3, h4⟩ := h
      obtain ⟨k', t', l₁, l₁', g1, g2, g3, g4⟩ := g
      rw [h1] at g1; cases g1
      rw [h3] at g2; cases g2
      exact ⟨k, t, l, l₁', h1, h2, g3, (by refine h4.trans (fun a b c h g => ?_) g4; exact EqualTyp.trans hR h g)⟩

theorem Equal.trans (C : Ctx) (n : Nat) : ∀ idx u v w, Equal C n idx u v → Equal C n idx v w → Equal C n idx u w := by
  induction n with
  | zero => intro _ _ _ _ h; exact h.elim
  | succ n ih =>
    rintro idx u v w ⟨m, hm, hl, h⟩ ⟨m', hm', hl', h'⟩
    rw [hm] at hm'; cases hm'
    refine ⟨m, hm, hl.trans hl', fun j mem a c h1 h2 h3 => ?_⟩
    obtain ⟨hj, -⟩ := List.getElem?_eq_some_iff.mp h2
    have hb : v.slots[j]? = Option.some (v.slots[j]'(hl ▸ hj)) := List.getElem?_eq_getElem _
    exact (h j mem a _ h1 h2 hb).trans ih (h' j mem _ c h1 hb h3)

/-! ## Reflexivity -/

theorem floatEqual_self {e m a : Nat} : FloatEqual e m a a ↔ ¬ IsNanBits e m a :=
  ⟨fun h => h.1, fun h => ⟨h, h, Or.inl rfl⟩⟩

theorem equalMaps_self {eq : RVal → RVal → Prop} {l : List (RVal × RVal)} (hl : ∀ e ∈ l, ∀ e' ∈ l, e.1 = e'.1 → e = e') :
    EqualMaps eq l l ↔ ∀ e ∈ l, eq e.2 e.2 := by
  constructor
  · rintro ⟨l₁, hp, hf⟩ e he
    obtain ⟨e', he', h1, h2⟩ : ∃ e' ∈ l₁, e.1 = e'.1 ∧ eq e.2 e'.2 := by
      clear hp hl
      induction hf with
      | nil => cases he
      | cons h hf ih =>
        rcases List.mem_cons.mp he with rfl | he
        · exact ⟨_, by simp, h⟩
        · obtain ⟨e', h1, h2⟩ := ih he
          exact ⟨e', by simp [h1], h2⟩
    have hm := hp.mem_iff.mp he'
    have : e = e' := hl e he e' hm h1
    rw [← this] at h2
    exact h2
  · intro h
    exact ⟨l, List.Perm.refl l, List.forall₂_same.mpr fun e he => ⟨rfl, h e he⟩⟩

section
variable {C : Ctx} {s : MessageIndex → RVal → Prop} {R : MessageIndex → RVal → RVal → Prop} {P : MessageIndex → RVal → Prop}
  (hs : ∀ i a, s i a → (R i a a ↔ P i a))
include hs

theorem equalTyp_self {t : FieldType} {a : RVal} (h : HasType C s t a) : EqualTyp R t a a ↔ NanFreeTyp P t a := by
  cases t <;> simp only [HasType] at h <;>
    first
    | exact hs _ _ h
    | exact h.elim
    | (obtain ⟨x, rfl⟩ := h; exact floatEqual_self)
    | (obtain ⟨x, rfl⟩ := h; simp [EqualTyp, ScalarEqual, NanFreeTyp])
    | (obtain ⟨x, rfl, -⟩ := h; simp [EqualTyp, ScalarEqual, NanFreeTyp])

theorem equalMember_self (hst : ∀ i a, s i a → ∃ l, a = .struct l) {mem : Member} (hk : ∀ f, mem = .field f → ∀ k t, f.typ = .map k t → ∀ i, k ≠ .message i) {a : RVal}
    (h : MemberTyped C AnyValue s mem a) : EqualMember R mem a a ↔ NanFreeMember P mem a := by
  cases mem with
  | oneof fs =>
    simp only [EqualMember, NanFreeMember]
    rcases h with rfl | ⟨i, f, x, h1, rfl, h3⟩
    · simp
    · constructor
      · rintro (⟨h, -⟩ | ⟨i', f', x', y', h4, h5, h6, h7⟩) j g y e1 e2
        · cases h
        · cases h5; cases h6; cases e1
          rw [h1] at h4; cases h4
          rw [h1] at e2; cases e2
          exact (equalTyp_self hs h3).mp h7
      · intro h
        exact Or.inr ⟨i, f, x, x, h1, rfl, rfl, (equalTyp_self hs h3).mpr (h i f x rfl h1)⟩
  | field f =>
    simp only [MemberTyped, FieldTyped, EqualMember] at h ⊢
    cases hg : f.frequency.generated with
    | singular =>
      rw [hg] at h
      simp only at h ⊢
      by_cases ho : f.frequency.isOptional = true
      · simp only [ho, if_true] at h ⊢
        rcases h with rfl | ⟨x, rfl, hx⟩
        · simp [NanFreeMember]
        · simp only [reduceCtorEq, false_and, false_or, RVal.some.injEq, NanFreeMember]
          rw [← equalTyp_self hs hx]
          exact ⟨fun ⟨_, _, h1, h2, h3⟩ => by subst h1; subst h2; exact h3, fun h => ⟨x, x, rfl, rfl, h⟩⟩
      · simp only [ho] at h ⊢
        have e := equalTyp_self hs h.1
        refine e.trans ?_
        have h1 := h.1
        cases ht : f.typ <;> rw [ht] at h1 <;> simp only [HasType] at h1 <;>
          first
          | (obtain ⟨l, rfl⟩ := hst _ _ h1; simp only [NanFreeMember, ht])
          | exact h1.elim
          | (obtain ⟨x, rfl⟩ := h1; simp only [NanFreeMember, ht])
          | (obtain ⟨x, rfl, -⟩ := h1; simp only [NanFreeMember, ht])
    | arrayLike =>
      rw [hg] at h
      simp only at h ⊢
      by_cases hpf : isPackedFixed f = true
      · simp only [hpf, if_true] at h
        by_cases hw : f.typ.wireTypeNumNonPacked = 1
        · simp only [hw, if_true] at h
          obtain ⟨p, rfl, hp⟩ := h
          simp only [reduceCtorEq, false_and, exists_false, false_or, or_false, RVal.pf64.injEq, NanFreeMember]
          have key : List.Forall₂ (fun x y => ScalarEqual f.typ (.w64 x) (.w64 y)) (pfElems p) (pfElems p) ↔
              ∀ x ∈ pfElems p, NanFreeTyp P f.typ (.w64 x) := by
            rw [List.forall₂_same]
            refine forall_congr' fun x => forall_congr' fun _ => ?_
            have hm : ∀ i, f.typ ≠ .message i := fun i e => by rw [e] at hw; cases hw
            cases ht : f.typ <;> first | exact floatEqual_self | (exact (hm _ ht).elim) | simp [ScalarEqual, NanFreeTyp]
          rw [← key]
          exact ⟨fun ⟨_, _, h1, h2, h3⟩ => by subst h1; subst h2; exact h3, fun h => ⟨p, p, rfl, rfl, h⟩⟩
        · simp only [hw, if_false] at h
          obtain ⟨p, rfl, hp⟩ := h
          simp only [reduceCtorEq, false_and, exists_false, false_or, or_false, RVal.pf32.injEq, NanFreeMember]
          have key : List.Forall₂ (fun x y => ScalarEqual f.typ (.w32 x) (.w32 y)) (pfElems p) (pfElems p) ↔
              ∀ x ∈ pfElems p, NanFreeTyp P f.typ (.w32 x) := by
            rw [List.forall₂_same]
            refine forall_congr' fun x => forall_congr' fun _ => ?_
            have hm : ∀ i, f.typ ≠ .message i := fun i e => by
              rw [isPackedFixed, e, Bool.and_eq_true] at hpf
              cases hpf.2
            cases ht : f.typ <;> first | exact floatEqual_self | (exact (hm _ ht).elim) | simp [ScalarEqual, NanFreeTyp]
          rw [← key]
          exact ⟨fun ⟨_, _, h1, h2, h3⟩ => by subst h1; subst h2; exact h3, fun h => ⟨p, p, rfl, rfl, h⟩⟩
      · simp only [hpf] at h
        obtain ⟨l, rfl, hl⟩ := h
        simp only [reduceCtorEq, false_and, exists_false, false_or, or_false, RVal.vec.injEq, NanFreeMember]
        have key : List.Forall₂ (EqualTyp R f.typ) l l ↔ ∀ x ∈ l, NanFreeTyp P f.typ x := by
          rw [List.forall₂_same]
          exact forall_congr' fun x => forall_congr' fun hx => equalTyp_self hs (hl x hx)
        rw [← key]
        exact ⟨fun ⟨_, _, h1, h2, h3⟩ => by subst h1; subst h2; exact h3, fun h => ⟨l, l, rfl, rfl, h⟩⟩
    | map =>
      rw [hg] at h
      simp only at h ⊢
      obtain ⟨k, t, l, ht, rfl, hl, hpw⟩ := h
      have hkm := hk f rfl k t ht
      simp only [NanFreeMember]
      have inj : ∀ e ∈ l, ∀ e' ∈ l, e.1 = e'.1 → e = e' := distinct_keys (fun a b => keyEq_iff hkm) hl hpw
      constructor
      · rintro ⟨k₁, t₁, l₁, l₂, h1, h2, h3, h4⟩ k₂ t₂ h5 e he
        cases h2; cases h3
        rw [h1] at h5; cases h5
        rw [ht] at h1; cases h1
        exact (equalTyp_self hs (hl e he).2).mp ((equalMaps_self inj).mp h4 e he)
      · intro h
        exact ⟨k, t, l, l, ht, rfl, rfl, (equalMaps_self inj).mpr fun e he => (equalTyp_self hs (hl e he).2).mpr (h k t ht e he)⟩

end

theorem Equal.self_iff (C : Ctx) (hK : ScalarKeys C) (n : Nat) : ∀ idx v, WellTyped C AnyValue n idx v → (Equal C n idx v v ↔ NanFree C n idx v) := by
  induction n with
  | zero => intro _ _ h; exact h.elim
  | succ n ih =>
    rintro idx v ⟨m, slots, hm, rfl, hlen, hmem⟩
    simp only [Equal, NanFree, RVal.slots]
    have key : ∀ p ∈ (members C.cfg m).zip slots, EqualMember (Equal C n) p.1 p.2 p.2 ↔ NanFreeMember (NanFree C n) p.1 p.2 := by
      intro p hp
      refine equalMember_self ih ?_ ?_ (hmem p hp)
      · intro i a h
        cases n with
        | zero => exact h.elim
        | succ n =>
          obtain ⟨_, l, _, h, _⟩ := h
          exact ⟨l, h⟩
      intro f hf
      exact hK idx m hm f (hf ▸ (List.of_mem_zip hp).1)
    constructor
    · rintro ⟨m', h0, -, h⟩ m'' h0' p hp
      rw [hm] at h0 h0'; cases h0; cases h0'
      obtain ⟨j, hj⟩ := List.mem_iff_getElem?.mp hp
      rw [List.getElem?_zip_eq_some] at hj
      exact (key p hp).mp (h j _ _ _ hj.1 hj.2 hj.2)
    · intro h
      refine ⟨m, hm, trivial, fun j mem a b h1 h2 h3 => ?_⟩
      rw [h2] at h3; cases h3
      have hp : (mem, a) ∈ (members C.cfg m).zip slots := List.mem_of_getElem? (List.getElem?_zip_eq_some.mpr ⟨h1, h2⟩)
      exact (key _ hp).mpr (h m hm _ hp)

end QP.Gen
