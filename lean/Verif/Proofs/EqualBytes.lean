import Verif.Spec.EqualBytes
import Verif.Proofs.EqualityLaws
import Verif.Proofs.EqualityMeaning
import Verif.Proofs.GenWrite
set_option linter.unusedVariables false
/-!
# Equal messages: sizes and bytes (proofs)
-/

namespace QP.Gen
open QP.Pbrs

theorem scalarEq_of_equal {t : FieldType} {a b : RVal} (h : ScalarEqual t a b) (d : RVal) : scalarEq t a d = scalarEq t b d := by
  cases t <;> first
    | (have h' : a = b := h; rw [h'])
    | (cases a <;> cases b <;> first
        | (cases d <;> first
            | rfl
            | (rename_i x y z
               simp only [scalarEq, if_true]
               rw [Bool.eq_iff_iff]
               first
               | (rw [f32Eq_iff, f32Eq_iff]; exact ⟨fun g => FloatEqual.trans (FloatEqual.symm h) g, fun g => FloatEqual.trans h g⟩)
               | (rw [f64Eq_iff, f64Eq_iff]; exact ⟨fun g => FloatEqual.trans (FloatEqual.symm h) g, fun g => FloatEqual.trans h g⟩)))
        | (cases h; done)
        | (cases h; rfl)
        | rfl)

theorem sum_forall₂ {α : Type} {f : α → Nat} {l l' : List α} (h : List.Forall₂ (fun a b => f a = f b) l l') : (l.map f).sum = (l'.map f).sum := by
  induction h with
  | nil => rfl
  | cons h _ ih => rw [List.map_cons, List.map_cons, List.sum_cons, List.sum_cons, h, ih]

theorem forall₂_mem {α : Type} {R S : α → α → Prop} {l l' : List α} (h : List.Forall₂ R l l') (hs : ∀ a ∈ l, ∀ b ∈ l', R a b → S a b) :
    List.Forall₂ S l l' := by
  induction h with
  | nil => exact .nil
  | cons h _ ih =>
    exact .cons (hs _ (List.mem_cons_self ..) _ (List.mem_cons_self ..) h) (ih fun a ha b hb => hs a (List.mem_cons_of_mem _ ha) b (List.mem_cons_of_mem _ hb))

theorem forall₂_length {α : Type} {R : α → α → Prop} {l l' : List α} (h : List.Forall₂ R l l') : l.length = l'.length := by
  induction h with
  | nil => rfl
  | cons _ _ ih => rw [List.length_cons, List.length_cons, ih]

section
variable {C : Ctx} {s : MessageIndex → RVal → Prop} {R : MessageIndex → RVal → RVal → Prop} {wr : MessageIndex → MessageWrite RVal}

theorem sizeTyp_equal (hw : ∀ i a b, s i a → s i b → R i a b → (wr i).get_size a = (wr i).get_size b) {t : FieldType} {a b : RVal}
    (ha : HasType C s t a) (hb : HasType C s t b) (h : EqualTyp R t a b) : sizeTyp wr t a = sizeTyp wr t b := by
  cases t <;> first
    | exact congrArg (sizeTyp wr _) h
    | rfl
    | (change sizeof_len _ = sizeof_len _; rw [hw _ _ _ ha hb h])

theorem scalarEq_equalTyp {t : FieldType} (hst : ∀ i a, s i a → ∃ l, a = .struct l) {a b : RVal}
    (ha : HasType C s t a) (hb : HasType C s t b) (h : EqualTyp R t a b) (d : RVal) : scalarEq t a d = scalarEq t b d := by
  by_cases ht : ∃ i, t = .message i
  · obtain ⟨i, rfl⟩ := ht
    obtain ⟨l, rfl⟩ := hst _ _ ha
    obtain ⟨l', rfl⟩ := hst _ _ hb
    cases d <;> rfl
  · rw [equalTyp_scalar (fun i e => ht ⟨i, e⟩)] at h
    exact scalarEq_of_equal h d

theorem sizeMember_equal (hT : C.T.bigEndian = false) (hst : ∀ i a, s i a → ∃ l, a = .struct l)
    (hw : ∀ i a b, s i a → s i b → R i a b → (wr i).get_size a = (wr i).get_size b) {mem : Member} {a b : RVal}
    (ha : MemberTyped C AnyValue s mem a) (hb : MemberTyped C AnyValue s mem b) (h : EqualMember R mem a b) :
    sizeMember C wr mem a = sizeMember C wr mem b := by
  cases mem with
  | oneof fs =>
    rcases h with ⟨rfl, rfl⟩ | ⟨i, f, x, y, h1, rfl, rfl, h2⟩
    · rfl
    · rcases ha with ha | ⟨_, f1, _, e1, e2, hx⟩
      · cases ha
      · cases e2
        rcases hb with hb | ⟨_, f2, _, e3, e4, hy⟩
        · cases hb
        · cases e4
          rw [h1] at e1 e3
          cases e1
          cases e3
          simp only [sizeMember, h1]
          rw [sizeTyp_equal hw hx hy h2]
  | field f =>
    simp only [MemberTyped, FieldTyped, EqualMember, sizeMember, sizeField] at ha hb h ⊢
    cases hg : f.frequency.generated with
    | singular =>
      rw [hg] at ha hb h
      simp only at ha hb h ⊢
      by_cases ho : f.frequency.isOptional = true
      · simp only [ho, if_true] at ha hb h ⊢
        rcases h with ⟨rfl, rfl⟩ | ⟨x, y, rfl, rfl, h⟩
        · rfl
        · rcases ha with ha | ⟨_, ha, hx⟩
          · cases ha
          cases ha
          rcases hb with hb | ⟨_, hb, hy⟩
          · cases hb
          cases hb
          cases f.hasPresence
          · rfl
          · simp only
            rw [sizeTyp_equal hw hx hy h]
      · have ho : f.frequency.isOptional = false := by simpa using ho
        simp only [ho, Bool.false_eq_true, if_false] at ha hb h ⊢
        have e := sizeTyp_equal hw ha.1 hb.1 h
        cases f.hasPresence
        · simp only
          rw [scalarEq_equalTyp hst ha.1 hb.1 h, e]
        · simp only
          rw [e]
    | arrayLike =>
      rw [hg] at ha hb h
      simp only at ha hb h ⊢
      rcases h with ⟨p, q, rfl, rfl, h⟩ | ⟨p, q, rfl, rfl, h⟩ | ⟨l, l', rfl, rfl, h⟩
      · have hp : PfOk p ∧ PfOk q := by
          split at ha
          · split at ha
            · obtain ⟨_, e, _⟩ := ha; cases e
            · rename_i h1 h2
              simp only [h1, h2, if_true, if_false] at hb
              obtain ⟨_, e, hp⟩ := ha
              obtain ⟨_, e', hq⟩ := hb
              cases e; cases e'
              exact ⟨hp, hq⟩
          · obtain ⟨_, e, _⟩ := ha; cases e
        have hM := MemTy.int_plain C.T 4 (by decide)
        have d1 := pfElems_denotes hT (by decide) p hp.1
        have d2 := pfElems_denotes hT (by decide) q hp.2
        have hl := forall₂_length h
        have e1 : p.is_empty = q.is_empty := by
          rw [pf_is_empty hM d1, pf_is_empty hM d2, Bool.eq_iff_iff, List.isEmpty_iff, List.isEmpty_iff, ← List.length_eq_zero_iff,
            ← List.length_eq_zero_iff, hl]
        have e2 : pfLen (MemTy.int C.T 4) p = pfLen (MemTy.int C.T 4) q := by
          unfold pfLen
          rw [pf_len hM d1, pf_len hM d2, hl]
        simp only [e1, e2]
      · have hp : PfOk p ∧ PfOk q := by
          split at ha
          · split at ha
            · rename_i h1 h2
              simp only [h1, h2, if_true] at hb
              obtain ⟨_, e, hp⟩ := ha
              obtain ⟨_, e', hq⟩ := hb
              cases e; cases e'
              exact ⟨hp, hq⟩
            · obtain ⟨_, e, _⟩ := ha; cases e
          · obtain ⟨_, e, _⟩ := ha; cases e
        have hM := MemTy.int_plain C.T 8 (by decide)
        have d1 := pfElems_denotes hT (by decide) p hp.1
        have d2 := pfElems_denotes hT (by decide) q hp.2
        have hl := forall₂_length h
        have e1 : p.is_empty = q.is_empty := by
          rw [pf_is_empty hM d1, pf_is_empty hM d2, Bool.eq_iff_iff, List.isEmpty_iff, List.isEmpty_iff, ← List.length_eq_zero_iff,
            ← List.length_eq_zero_iff, hl]
        have e2 : pfLen (MemTy.int C.T 8) p = pfLen (MemTy.int C.T 8) q := by
          unfold pfLen
          rw [pf_len hM d1, pf_len hM d2, hl]
        simp only [e1, e2]
      · have hv : (∀ x ∈ l, HasType C s f.typ x) ∧ ∀ x ∈ l', HasType C s f.typ x := by
          split at ha
          · split at ha <;> (obtain ⟨_, e, _⟩ := ha; cases e)
          · rename_i h1
            simp only [h1] at hb
            obtain ⟨_, e, hp⟩ := ha
            obtain ⟨_, e', hq⟩ := hb
            cases e; cases e'
            exact ⟨hp, hq⟩
        have hl := forall₂_length h
        have hs1 := sum_forall₂ (f := sizeTyp wr f.typ) (forall₂_mem h fun a ha b hb hab => sizeTyp_equal hw (hv.1 a ha) (hv.2 b hb) hab)
        have hs2 := sum_forall₂ (f := fun x => sizeofVarint f.tag + sizeTyp wr f.typ x)
          (forall₂_mem h fun a ha b hb hab => by rw [sizeTyp_equal hw (hv.1 a ha) (hv.2 b hb) hab])
        have e1 : l.isEmpty = l'.isEmpty := by
          rw [Bool.eq_iff_iff, List.isEmpty_iff, List.isEmpty_iff, ← List.length_eq_zero_iff, ← List.length_eq_zero_iff, hl]
        simp only [hs1, hs2, hl, e1]
    | map =>
      rw [hg] at ha hb h
      simp only at ha hb h ⊢
      obtain ⟨k, t, l, l', ht, rfl, rfl, l₁, hp, hf⟩ := h
      obtain ⟨k1, t1, l2, e1, e2, ha, _⟩ := ha
      obtain ⟨k2, t2, l3, e3, e4, hb, _⟩ := hb
      rw [ht] at e1 e3
      cases e1; cases e2; cases e3; cases e4
      simp only [ht]
      rw [← (hp.map fun kv => sizeofVarint f.tag + sizeof_len (sizeEntry wr k t kv)).sum_nat]
      refine sum_forall₂ (forall₂_mem hf fun e he e' he' hee => ?_)
      have he'' := hp.subset he'
      unfold sizeEntry
      rw [hee.1, sizeTyp_equal hw (ha e he).2 (hb e' he'').2 hee.2]

end

theorem zipWith_sum_congr {α β : Type} {f g : α → β → Nat} : ∀ (ms : List α) (l l' : List β), l.length = l'.length →
    (∀ (j : Nat) m a b, ms[j]? = Option.some m → l[j]? = Option.some a → l'[j]? = Option.some b → f m a = g m b) →
    (List.zipWith f ms l).sum = (List.zipWith g ms l').sum
  | [], _, _, _, _ => by simp
  | _ :: _, [], [], _, _ => rfl
  | _ :: _, [], _ :: _, h, _ => by cases h
  | _ :: _, _ :: _, [], h, _ => by cases h
  | m :: ms, a :: l, b :: l', hl, h => by
    rw [List.zipWith_cons_cons, List.zipWith_cons_cons, List.sum_cons, List.sum_cons, h 0 m a b rfl rfl rfl,
      zipWith_sum_congr ms l l' (by simpa using hl) fun j m a b e1 e2 e3 => h (j + 1) m a b e1 e2 e3]

theorem mem_zip_get {α β : Type} {l : List α} {l' : List β} {j : Nat} {a : α} {b : β} (h1 : l[j]? = Option.some a) (h2 : l'[j]? = Option.some b) :
    (a, b) ∈ l.zip l' := by
  refine List.mem_of_getElem? (i := j) ?_
  rw [List.getElem?_zip_eq_some]
  exact ⟨h1, h2⟩

theorem wellTyped_struct {C : Ctx} {Q : Field → RVal → Prop} {n : Nat} {i : MessageIndex} {a : RVal} (h : WellTyped C Q n i a) : ∃ l, a = .struct l := by
  cases n with
  | zero => exact h.elim
  | succ n => obtain ⟨m, l, _, e, _⟩ := h; exact ⟨l, e⟩

theorem size_equal (C : Ctx) (hT : C.T.bigEndian = false) (n : Nat) : ∀ idx v w, WellTyped C AnyValue n idx v → WellTyped C AnyValue n idx w →
    Equal C n idx v w → (writeImpl C n idx).get_size v = (writeImpl C n idx).get_size w := by
  induction n with
  | zero => intro _ _ _ h; exact h.elim
  | succ n ih =>
    rintro idx v w ⟨m, l, hm, rfl, hl, hv⟩ ⟨m', l', hm', rfl, hl', hw⟩ ⟨m'', hm'', hlen, he⟩
    rw [hm] at hm' hm''
    cases hm'; cases hm''
    simp only [writeImpl, hm]
    refine zipWith_sum_congr _ _ _ hlen fun j mem a b e1 e2 e3 => ?_
    exact sizeMember_equal (s := WellTyped C AnyValue n) (R := Equal C n) hT (fun i a h => wellTyped_struct h) ih
      (hv _ (mem_zip_get e1 e2)) (hw _ (mem_zip_get e1 e3)) (he j mem a b e1 e2 e3)

/-! ## Bytes -/

theorem float_same {x y : BitVec 32} (h : FloatEqual 8 23 x.toNat y.toNat) (hx : x ≠ 0x80000000#32) (hy : y ≠ 0x80000000#32) : x = y := by
  rcases h.2.2 with e | ⟨h1, h2⟩
  · exact BitVec.eq_of_toNat_eq e
  · have k1 := x.isLt
    have k2 := y.isLt
    have hx' : x.toNat ≠ 2147483648 := fun e => hx (BitVec.eq_of_toNat_eq e)
    have hy' : y.toNat ≠ 2147483648 := fun e => hy (BitVec.eq_of_toNat_eq e)
    exact BitVec.eq_of_toNat_eq (by omega)

theorem double_same {x y : BitVec 64} (h : FloatEqual 11 52 x.toNat y.toNat) (hx : x ≠ 0x8000000000000000#64) (hy : y ≠ 0x8000000000000000#64) : x = y := by
  rcases h.2.2 with e | ⟨h1, h2⟩
  · exact BitVec.eq_of_toNat_eq e
  · have k1 := x.isLt
    have k2 := y.isLt
    have hx' : x.toNat ≠ 9223372036854775808 := fun e => hx (BitVec.eq_of_toNat_eq e)
    have hy' : y.toNat ≠ 9223372036854775808 := fun e => hy (BitVec.eq_of_toNat_eq e)
    exact BitVec.eq_of_toNat_eq (by omega)

theorem flatMap_forall₂ {α β : Type} {f : α → List β} {l l' : List α} (h : List.Forall₂ (fun a b => f a = f b) l l') : l.flatMap f = l'.flatMap f := by
  induction h with
  | nil => rfl
  | cons h _ ih => rw [List.flatMap_cons, List.flatMap_cons, h, ih]

section
variable {C : Ctx} {s : MessageIndex → RVal → Prop} {P : MessageIndex → RVal → Prop} {R : MessageIndex → RVal → RVal → Prop}
  {sub : MessageIndex → RVal → Bytes}

theorem encTyp_equal (hw : ∀ i a b, s i a → s i b → P i a → P i b → R i a b → sub i a = sub i b) {t : FieldType} {a b : RVal}
    (ha : HasType C s t a) (hb : HasType C s t b) (da : DeterminedTyp P t a) (db : DeterminedTyp P t b) (h : EqualTyp R t a b) :
    encTyp sub t a = encTyp sub t b := by
  cases t <;> first
    | exact congrArg (encTyp sub _) h
    | (change Spec.delimited _ = Spec.delimited _; rw [hw _ _ _ ha hb da db h])
    | (obtain ⟨x, rfl⟩ := ha; obtain ⟨y, rfl⟩ := hb
       first
       | rw [float_same h da db]
       | rw [double_same h da db])

theorem elems_equal32 {t : FieldType} {l l' : List (BitVec 32)} (h : List.Forall₂ (fun x y => ScalarEqual t (.w32 x) (.w32 y)) l l')
    (da : ∀ x ∈ l, DeterminedTyp P t (.w32 x)) (db : ∀ x ∈ l', DeterminedTyp P t (.w32 x)) : l = l' := by
  have : List.Forall₂ (fun x y : BitVec 32 => x = y) l l' := forall₂_mem h fun a ha b hb hab => by
    cases t <;> first
      | exact RVal.w32.inj hab
      | exact float_same hab (da a ha) (db b hb)
  exact List.forall₂_eq_eq_eq ▸ this

theorem elems_equal64 {t : FieldType} {l l' : List (BitVec 64)} (h : List.Forall₂ (fun x y => ScalarEqual t (.w64 x) (.w64 y)) l l')
    (da : ∀ x ∈ l, DeterminedTyp P t (.w64 x)) (db : ∀ x ∈ l', DeterminedTyp P t (.w64 x)) : l = l' := by
  have : List.Forall₂ (fun x y : BitVec 64 => x = y) l l' := forall₂_mem h fun a ha b hb hab => by
    cases t <;> first
      | exact RVal.w64.inj hab
      | exact double_same hab (da a ha) (db b hb)
  exact List.forall₂_eq_eq_eq ▸ this

theorem determined_singular {f : Field} (hst : ∀ i a, s i a → ∃ l, a = .struct l) {a : RVal} (ha : HasType C s f.typ a) (da : DeterminedMember P (.field f) a) :
    DeterminedTyp P f.typ a := by
  cases ht : f.typ <;> rw [ht] at ha <;> simp only [HasType] at ha <;>
    first
    | (obtain ⟨l, rfl⟩ := hst _ _ ha; simpa only [DeterminedMember, ht] using da)
    | exact ha.elim
    | (obtain ⟨x, rfl⟩ := ha; simpa only [DeterminedMember, ht] using da)
    | (obtain ⟨x, rfl, -⟩ := ha; simpa only [DeterminedMember, ht] using da)

theorem encMember_equal (hst : ∀ i a, s i a → ∃ l, a = .struct l)
    (hw : ∀ i a b, s i a → s i b → P i a → P i b → R i a b → sub i a = sub i b) {mem : Member} {a b : RVal}
    (ha : MemberTyped C AnyValue s mem a) (hb : MemberTyped C AnyValue s mem b) (da : DeterminedMember P mem a) (db : DeterminedMember P mem b)
    (h : EqualMember R mem a b) (j : Nat) :
    (memberItems C j mem a).flatMap (itemEnc sub) = (memberItems C j mem b).flatMap (itemEnc sub) := by
  cases mem with
  | oneof fs =>
    rcases h with ⟨rfl, rfl⟩ | ⟨i, f, x, y, h1, rfl, rfl, h2⟩
    · rfl
    · rcases ha with ha | ⟨_, f1, _, e1, e2, hx⟩
      · cases ha
      · cases e2
        rcases hb with hb | ⟨_, f2, _, e3, e4, hy⟩
        · cases hb
        · cases e4
          rw [h1] at e1 e3
          cases e1
          cases e3
          simp only [memberItems, h1, List.flatMap_cons, List.flatMap_nil, itemEnc, itemPayload, Option.isSome_some, if_true]
          rw [encTyp_equal hw hx hy (da i f x rfl h1) (db i f y rfl h1) h2]
  | field f =>
    simp only [MemberTyped, FieldTyped, EqualMember] at ha hb h
    simp only [memberItems, List.flatMap_map]
    cases hg : f.frequency.generated with
    | singular =>
      rw [hg] at ha hb h
      simp only at ha hb h ⊢
      have he : ∀ x, itemEnc sub (⟨j, f, Option.none⟩, x) = Spec.varint (fieldTag f) ++ encTyp sub f.typ x := fun x => by
        simp only [itemEnc, itemPayload, Option.isSome_none, hg]
        rfl
      by_cases ho : f.frequency.isOptional = true
      · simp only [ho, if_true] at ha hb h ⊢
        rcases h with ⟨rfl, rfl⟩ | ⟨x, y, rfl, rfl, h⟩
        · rfl
        · rcases ha with ha | ⟨_, ha, hx⟩
          · cases ha
          cases ha
          rcases hb with hb | ⟨_, hb, hy⟩
          · cases hb
          cases hb
          simp only [List.flatMap_cons, List.flatMap_nil, he]
          rw [encTyp_equal hw hx hy da db h]
      · have ho : f.frequency.isOptional = false := by simpa using ho
        simp only [ho, Bool.false_eq_true, if_false] at ha hb h ⊢
        have e := encTyp_equal hw ha.1 hb.1 (determined_singular hst ha.1 da) (determined_singular hst hb.1 db) h
        rw [scalarEq_equalTyp hst ha.1 hb.1 h]
        split
        · simp only [List.flatMap_cons, List.flatMap_nil, he]
          rw [e]
        · split
          · rfl
          · simp only [List.flatMap_cons, List.flatMap_nil, he]
            rw [e]
    | arrayLike =>
      rw [hg] at ha hb h
      simp only at ha hb h ⊢
      rcases h with ⟨p, q, rfl, rfl, h⟩ | ⟨p, q, rfl, rfl, h⟩ | ⟨l, l', rfl, rfl, h⟩
      · have e := elems_equal32 h da db
        split
        · rename_i hp
          simp only [e]
          split
          · rfl
          · simp only [List.flatMap_cons, List.flatMap_nil, itemEnc, itemPayload, hg, hp, e]
            rfl
        · rfl
      · have e := elems_equal64 h da db
        split
        · rename_i hp
          simp only [e]
          split
          · rfl
          · simp only [List.flatMap_cons, List.flatMap_nil, itemEnc, itemPayload, hg, hp, e]
            rfl
        · rfl
      · have hv : (∀ x ∈ l, HasType C s f.typ x) ∧ ∀ x ∈ l', HasType C s f.typ x := by
          split at ha
          · split at ha <;> (obtain ⟨_, e, _⟩ := ha; cases e)
          · rename_i h1
            simp only [h1] at hb
            obtain ⟨_, e, hp⟩ := ha
            obtain ⟨_, e', hq⟩ := hb
            cases e; cases e'
            exact ⟨hp, hq⟩
        have hl := forall₂_length h
        have e1 : l.isEmpty = l'.isEmpty := by
          rw [Bool.eq_iff_iff, List.isEmpty_iff, List.isEmpty_iff, ← List.length_eq_zero_iff, ← List.length_eq_zero_iff, hl]
        have e2 : List.Forall₂ (fun a b => encTyp sub f.typ a = encTyp sub f.typ b) l l' :=
          forall₂_mem h fun a ha b hb hab => encTyp_equal hw (hv.1 a ha) (hv.2 b hb) (da a ha) (db b hb) hab
        split
        · rename_i hp
          simp only [e1]
          split
          · rfl
          · simp only [List.flatMap_cons, List.flatMap_nil, itemEnc, itemPayload, hg, hp, flatMap_forall₂ e2]
            rfl
        · rename_i hp
          refine flatMap_forall₂ (forall₂_mem e2 fun a _ b _ hab => ?_)
          simp only [itemEnc, itemPayload, hg, hp, Option.isSome_none, Bool.false_eq_true, if_false, hab]
    | map =>
      rw [hg] at ha hb h
      simp only at ha hb h ⊢
      obtain ⟨k, t, l, l', ht, rfl, rfl, l₁, hp, hf⟩ := h
      obtain ⟨k1, t1, l2, e1, e2, ha, _⟩ := ha
      obtain ⟨k2, t2, l3, e3, e4, hb, _⟩ := hb
      rw [ht] at e1 e3
      cases e1; cases e2; cases e3; cases e4
      have hl1 : l₁ = l' := by
        have hlen := db.1
        match l', l₁, hp, hlen with
        | [], l₁, hp, _ => exact hp.eq_nil
        | [x], l₁, hp, _ => exact List.perm_singleton.mp hp
        | _ :: _ :: _, _, _, h => simp at h
      subst hl1
      rw [List.flatMap_map, List.flatMap_map]
      refine flatMap_forall₂ (forall₂_mem hf fun e he e' he' hee => ?_)
      simp only [itemEnc, itemPayload, hg, ht, Option.isSome_none, Bool.false_eq_true, if_false, entryEnc]
      rw [hee.1, encTyp_equal hw (ha e he).2 (hb e' he').2 (da.2 k t ht e he) (db.2 k t ht e' he') hee.2]

end

theorem zipIdx_flatMap_congr {α β γ : Type} {f : α → β → Nat → List γ} : ∀ (ms : List α) (l l' : List β) (n : Nat), l.length = l'.length →
    (∀ (j : Nat) m a b, ms[j]? = Option.some m → l[j]? = Option.some a → l'[j]? = Option.some b → ∀ i, f m a i = f m b i) →
    ((ms.zip l).zipIdx n).flatMap (fun p => f p.1.1 p.1.2 p.2) = ((ms.zip l').zipIdx n).flatMap (fun p => f p.1.1 p.1.2 p.2)
  | [], _, _, _, _, _ => by simp
  | _ :: _, [], [], _, _, _ => rfl
  | _ :: _, [], _ :: _, _, h, _ => by cases h
  | _ :: _, _ :: _, [], _, h, _ => by cases h
  | m :: ms, a :: l, b :: l', n, hl, h => by
    simp only [List.zip_cons_cons, List.zipIdx_cons, List.flatMap_cons]
    rw [h 0 m a b rfl rfl rfl, zipIdx_flatMap_congr ms l l' (n + 1) (by simpa using hl) fun j m a b e1 e2 e3 => h (j + 1) m a b e1 e2 e3]

theorem enc_equal (C : Ctx) (n : Nat) : ∀ idx v w, WellTyped C AnyValue n idx v → WellTyped C AnyValue n idx w → Determined C n idx v →
    Determined C n idx w → Equal C n idx v w → encMsg C n idx v = encMsg C n idx w := by
  induction n with
  | zero => intro _ _ _ h; exact h.elim
  | succ n ih =>
    rintro idx v w ⟨m, l, hm, rfl, hl, hv⟩ ⟨m', l', hm', rfl, hl', hw⟩ dv dw ⟨m'', hm'', hlen, he⟩
    rw [hm] at hm' hm''
    cases hm'; cases hm''
    simp only [encMsg, hm, msgItems, List.flatMap_assoc]
    refine zipIdx_flatMap_congr (f := fun mem v j => (memberItems C j mem v).flatMap (itemEnc (encMsg C n))) _ _ _ 0 hlen
      fun j mem a b e1 e2 e3 i => ?_
    exact encMember_equal (a := a) (b := b) (s := WellTyped C AnyValue n) (P := Determined C n) (R := Equal C n) (fun i a h => wellTyped_struct h) ih
      (hv _ (mem_zip_get e1 e2)) (hw _ (mem_zip_get e1 e3)) (dv m hm _ (mem_zip_get e1 e2)) (dw m hm _ (mem_zip_get e1 e3)) (he j mem a b e1 e2 e3) i

end QP.Gen
