import Verif.Spec.Merge
import Verif.Proofs.Versions
import Verif.Props.Versions
import Verif.Props.Messages
/-!
# Concatenated encodings

The records of an encoded value, one by one; what two sequences of records make of a member.
-/

set_option linter.unusedVariables false

namespace QP.Gen
open QP.Pbrs Spec

/-! ## The records of an encoded value -/

section
variable {C : Ctx} {subT : MessageIndex → RVal → Prop} {enc : MessageIndex → RVal → Bytes} {dec : MessageIndex → Bytes → RVal → Prop}

/-- A value in the wire form of its type is a value of this type, the same. -/
theorem typ_self {t : FieldType} {x : RVal} (h : HasType C subT t x) (hl : (encTyp enc t x).length < 2 ^ 32)
    (hs : ∀ i, subT i x → (enc i x).length < (encTyp enc t x).length → ∃ x', dec i (enc i x) x' ∧ x'.obs = x.obs) :
    ∃ x', DecTyp C dec t (encTyp enc t x) x' ∧ x'.obs = x.obs := by
  by_cases hm : ∃ i, t = .message i
  · obtain ⟨i, rfl⟩ := hm
    simp only [HasType] at h
    simp only [encTyp] at hl hs ⊢
    have hd := delimited_ok hl
    obtain ⟨x', h1, h2⟩ := hs i h (by have := delimited_length (enc i x); omega)
    exact ⟨x', ⟨_, hd, h1⟩, h2⟩
  · have hc : Convertible (fun _ _ => False) t t := by
      cases t <;> simp only [HasType] at h <;> simp [Convertible, FieldType.isVarint, FieldType.isNarrow]
      exact hm ⟨_, rfl⟩
    obtain ⟨x', h1, h2⟩ := typ_carried (R := C) (W := C) (P := fun _ _ => False) (enc := enc) (dec := dec) (car := fun _ _ _ _ => True) h hc hl
      (fun i i' hf => hf.elim)
    exact ⟨x', h1, by rw [carries_same h (fun i hi => hm ⟨i, hi⟩) (Or.inl rfl) (fun e _ _ y hy => hy) h2]⟩

theorem parses_self {t : FieldType} : ∀ l : List RVal, (∀ x ∈ l, HasType C subT t x) → (l.flatMap (encTyp enc t)).length < 2 ^ 32 →
    (∀ x i, subT i x → (enc i x).length < (l.flatMap (encTyp enc t)).length → ∃ x', dec i (enc i x) x' ∧ x'.obs = x.obs) →
    ∃ l', Parses (DecTyp C dec t) (l.flatMap (encTyp enc t)) l' ∧ RVal.obsList l' = RVal.obsList l
  | [], _, _, _ => ⟨[], .nil, rfl⟩
  | x :: l, h, hl, hs => by
    rw [List.flatMap_cons, List.length_append] at hl hs
    obtain ⟨x', h1, h2⟩ := typ_self (enc := enc) (dec := dec) (h x (List.mem_cons_self ..)) (by omega) (fun i hi hl' => hs x i hi (by omega))
    obtain ⟨l', h3, h4⟩ := parses_self (t := t) l (fun y hy => h y (List.mem_cons_of_mem _ hy)) (by omega) (fun y i hi hl' => hs y i hi (by omega))
    exact ⟨x' :: l', .cons h1 h3, by simp only [RVal.obsList, h2, h4]⟩

/-- The payload of a record is read as what it was written for. -/
theorem arm_self {a : Arm} {x : RVal} (h : ItemTyped C subT a x) (hb : a.field.boxed = true → a.kind = .singular)
    (hl : (itemPayload enc (a, x)).length < 2 ^ 32)
    (hs : ∀ x' i, subT i x' → (enc i x').length < (itemPayload enc (a, x)).length → ∃ x'', dec i (enc i x') x'' ∧ x''.obs = x'.obs) :
    ∃ x', DecArm C dec a (itemPayload enc (a, x)) x' ∧ x'.obs = x.obs := by
  simp only [decArm_kind hb]
  rw [itemPayload_kind] at hl hs ⊢
  rcases h with ⟨hg, k, t, e, ht, rfl, hk, hv⟩ | ⟨hg, hpk, hx⟩ | ⟨hg, hpk, h1, p, rfl⟩ | ⟨hg, hpk, h1, p, rfl⟩ | ⟨hg, hpk, h1, l, rfl, hx⟩
  · simp only [hg, ht] at hl hs ⊢
    have hd := delimited_ok hl
    have hdl := delimited_length (entryEnc enc k t e)
    have hlb : (entryEnc enc k t e).length = (varint (Spec.tag 1 (k.wireTypeNum false))).length + (encTyp enc k e.1).length +
        (varint (Spec.tag 2 (t.wireTypeNum false))).length + (encTyp enc t e.2).length := by
      simp only [entryEnc, List.length_append]
    obtain ⟨xk, d1, c1⟩ := typ_self (enc := enc) (dec := dec) hk (by omega) (fun i hi hl' => hs e.1 i hi (by omega))
    obtain ⟨xv, d2, c2⟩ := typ_self (enc := enc) (dec := dec) hv (by omega) (fun i hi hl' => hs e.2 i hi (by omega))
    have w1 := wireTypeNum_lt k false
    have w2 := wireTypeNum_lt t false
    have hp : Parses (DecPart C dec k t) (entryEnc enc k t e) [(false, xk), (true, xv)] := by
      rw [entryEnc, partTag (by omega) w1, partTag (by omega) w2]
      rw [show ([BitVec.ofNat 8 (1 * 8 + k.wireTypeNum false)] ++ encTyp enc k e.1 ++ [BitVec.ofNat 8 (2 * 8 + t.wireTypeNum false)] ++ encTyp enc t e.2) =
        (BitVec.ofNat 8 (1 * 8 + k.wireTypeNum false) :: encTyp enc k e.1) ++ ((BitVec.ofNat 8 (2 * 8 + t.wireTypeNum false) :: encTyp enc t e.2) ++ []) from by simp]
      refine .cons ⟨_, _, rfl, Or.inl ⟨?_, rfl, d1⟩⟩ (.cons ⟨_, _, rfl, Or.inr ⟨?_, rfl, d2⟩⟩ .nil)
      · rw [BitVec.toNat_ofNat]; omega
      · rw [BitVec.toNat_ofNat]; omega
    refine ⟨_, ⟨k, t, _, _, rfl, hd, hp, rfl⟩, ?_⟩
    have e1 : lastPart false (typDefault C k) [(false, xk), (true, xv)] = xk := rfl
    have e2 : lastPart true (typDefault C t) [(false, xk), (true, xv)] = xv := rfl
    obtain ⟨ek, ev⟩ := e
    simp only [e1, e2, RVal.obs, RVal.obsEntries, c1, c2]
  · have hl' : (encTyp enc a.field.typ x).length < 2 ^ 32 := by
      revert hl hg
      cases a.kind <;> simp [hpk]
    obtain ⟨x', h1, h2⟩ := typ_self (enc := enc) (dec := dec) hx hl' (fun i hi hl'' => hs x i hi (by
      revert hl'' hg
      cases a.kind <;> simp [hpk]))
    refine ⟨x', ?_, h2⟩
    revert hg
    cases a.kind <;> simp [hpk, h1]
  · simp only [hg, hpk, if_true] at hl hs ⊢
    have hd := delimited_ok hl
    have f1 : a.field.typ.isFixedSize = true := by simp [FieldType.isFixedSize, h1]
    simp only [f1, if_true, h1]
    refine ⟨_, ⟨_, hd, rfl⟩, ?_⟩
    simp only [RVal.obs]
    rw [take_whole (k := 8) (by omega), pfElems_flat (k := 8) (by omega)]
  · simp only [hg, hpk, if_true] at hl hs ⊢
    have hd := delimited_ok hl
    have f1 : a.field.typ.isFixedSize = true := by simp [FieldType.isFixedSize, h1]
    have f2 : ¬ (5 : Nat) = 1 := by omega
    simp only [f1, if_true, h1, f2, if_false]
    refine ⟨_, ⟨_, hd, rfl⟩, ?_⟩
    simp only [RVal.obs]
    rw [take_whole (k := 4) (by omega), pfElems_flat (k := 4) (by omega)]
  · simp only [hg, hpk, if_true] at hl hs ⊢
    have hd := delimited_ok hl
    have hdl := delimited_length (l.flatMap (encTyp enc a.field.typ))
    simp only [h1, Bool.false_eq_true, if_false]
    obtain ⟨l', p1, p2⟩ := parses_self (C := C) (enc := enc) (dec := dec) l hx (by omega) (fun x i hi hl' => hs x i hi (by omega))
    exact ⟨_, ⟨_, hd, l', p1, rfl⟩, by simp only [RVal.obs, p2]⟩

end

/-- A record is read as what was written. -/
def Reread (it u : Item) : Prop := u.1 = it.1 ∧ u.2.obs = it.2.obs

theorem parses_some {V U : Type} {Rec : Bytes → Option U → Prop} {enc : V → Bytes} {T : V → U → Prop} :
    ∀ l : List V, (∀ v ∈ l, ∃ u, Rec (enc v) (Option.some u) ∧ T v u) → ∃ us, Parses Rec (l.flatMap enc) (us.map Option.some) ∧ List.Forall₂ T l us
  | [], _ => ⟨[], .nil, .nil⟩
  | v :: l, h => by
    obtain ⟨u, h1, h2⟩ := h v (List.mem_cons_self ..)
    obtain ⟨us, h3, h4⟩ := parses_some l (fun w hw => h w (List.mem_cons_of_mem _ hw))
    exact ⟨u :: us, .cons h1 h3, .cons h2 h4⟩

/-- The records of an encoded value are read one by one. -/
theorem items_self {C : Ctx} (hS : SchemaOk C) {m : Message} {idx : MessageIndex} (hm : C.D.getMessage idx = Option.some m) {Q : Field → RVal → Prop}
    {subT : MessageIndex → RVal → Prop} {enc : MessageIndex → RVal → Bytes} {dec : MessageIndex → Bytes → RVal → Prop} {slots : List RVal}
    (htyp : ∀ p ∈ (members C.cfg m).zip slots, MemberTyped C Q subT p.1 p.2) (hl : ((msgItems C m slots).flatMap (itemEnc enc)).length < 2 ^ 32)
    (hs : ∀ x i, subT i x → (enc i x).length < ((msgItems C m slots).flatMap (itemEnc enc)).length → ∃ x', dec i (enc i x) x' ∧ x'.obs = x.obs) :
    ∃ us : List Item, Parses (Record C dec m) ((msgItems C m slots).flatMap (itemEnc enc)) (us.map Option.some) ∧
      List.Forall₂ Reread (msgItems C m slots) us := by
  refine parses_some _ fun it hit => ?_
  obtain ⟨mem, w, h1, h2, h3, h4⟩ := mem_msgItems hit
  have hle := flatMap_len (g := itemEnc enc) hit
  have ht := fieldTag_lt32 (hS idx m hm) h4
  have hv : IsVarint (varint (fieldTag it.1.field)) := IsVarint.of_canonical (by omega)
  have hlen : (itemEnc enc it).length = (varint (fieldTag it.1.field)).length + (itemPayload enc it).length := by rw [itemEnc, List.length_append]
  obtain ⟨x', d, o⟩ := arm_self (C := C) (enc := enc) (dec := dec) (a := it.1) (x := it.2) (item_typed (htyp _ h2) h3) (arm_boxed (hS idx m hm) h4)
    (by show (itemPayload enc it).length < 2 ^ 32; omega)
    (fun x i hi hlx => hs x i hi (by
      have : (enc i x).length < (itemPayload enc it).length := hlx
      omega))
  refine ⟨(it.1, x'), ⟨_, _, hv, rfl, Or.inl ⟨it.1, h4, x', ?_, d, rfl⟩⟩, rfl, o⟩
  rw [varintVal_varint, Nat.mod_eq_of_lt ht]

/-- An encoded value denotes the value. -/
theorem msg_self {C : Ctx} (hT : C.T.bigEndian = false) (hS : SchemaOk C) (hD : IsDefault C) : ∀ (n : Nat) (idx : MessageIndex) (v : RVal),
    WellTyped C (Restorable C) n idx v → (encMsg C n idx v).length < 2 ^ 32 → (encMsg C n idx v).length < 2 ^ C.T.usizeBits →
    ∃ v', DecMsg C n idx (encMsg C n idx v) v' ∧ v'.obs = v.obs
  | 0, _, _, h, _, _ => h.elim
  | n + 1, idx, v, h, hl, hb => by
    have hw := h
    obtain ⟨m, slots, hm, rfl, hlen, htyp⟩ := h
    have ih := msg_self hT hS hD n
    have he : encMsg C (n + 1) idx (.struct slots) = (msgItems C m slots).flatMap (itemEnc (encMsg C n)) := by simp [encMsg, hm, RVal.slots]
    have hl' := hl
    have hb' := hb
    rw [he] at hl' hb'
    obtain ⟨us, hus, _⟩ := items_self hS hm htyp hl' (fun x i hi hlx => ih i x hi (by omega) (by omega))
    have hex : ∃ v', DecMsg C (n + 1) idx (encMsg C (n + 1) idx (.struct slots)) v' := by
      rw [he]
      cases hu : m.isUnit with
      | false => exact ⟨_, m, hm, by rw [hu]; exact ⟨_, ⟨_, hus, rfl⟩, rfl⟩⟩
      | true => exact ⟨_, m, hm, by rw [hu, if_pos rfl]⟩
    obtain ⟨v', hv'⟩ := hex
    refine ⟨v', hv', ?_⟩
    obtain ⟨w, ho, hr⟩ := fromReader_ok hT hS hD (n + 1) idx _ hw hl _ (Nat.lt_succ_self _)
    have hr' := fromReader_of_dec hS (n + 1) idx _ v' hv' _ (Nat.lt_succ_self _)
    have e1 := hr [] [] (by simpa using hb)
    have e2 := hr' [] [] (by simpa using hb)
    rw [e1] at e2
    simp only [Prod.mk.injEq, Out.ok.injEq] at e2
    rw [← e2.1, ho]

/-! ## The records of a member -/

theorem msgItems_slot {C : Ctx} {m : Message} {slots : List RVal} {j : Nat} {mem : Member} {v : RVal}
    (hj : (members C.cfg m)[j]? = Option.some mem) (hv : slots[j]? = Option.some v) :
    (msgItems C m slots).filter (fun it => it.1.slot == j) = memberItems C j mem v := by
  unfold msgItems
  rw [List.filter_flatMap]
  have hz : ((members C.cfg m).zip slots)[j]? = Option.some (mem, v) := by
    rw [List.getElem?_zip_eq_some]; exact ⟨hj, hv⟩
  have := flatMap_one (s := 0) (g := fun x : (Member × RVal) × Nat => (memberItems C x.2 x.1.1 x.1.2).filter (fun it => it.1.slot == j)) hz ?_
  · rw [Nat.zero_add] at this
    refine this.trans ?_
    rw [List.filter_eq_self]
    intro it hit
    simpa using (memberItems_arm (Q := fun _ _ => True) (sub := fun _ _ => True) hit).2
  · intro p hp hne
    rw [List.filter_eq_nil_iff]
    intro it hit heq
    have := (memberItems_arm (Q := fun _ _ => True) (sub := fun _ _ => True) hit).2
    simp only [beq_iff_eq] at heq
    omega

theorem reread_slot {its us : List Item} (h : List.Forall₂ Reread its us) (j : Nat) :
    List.Forall₂ Reread (its.filter (fun it => it.1.slot == j)) (us.filter (fun it => it.1.slot == j)) := by
  induction h with
  | nil => exact .nil
  | @cons it u its us h1 h2 ih =>
    have e := h1.1
    cases hj : it.1.slot == j with
    | true => rw [List.filter_cons_of_pos (by simpa using hj), List.filter_cons_of_pos (by rw [e]; simpa using hj)]; exact .cons h1 ih
    | false => rw [List.filter_cons_of_neg (by simp [hj]), List.filter_cons_of_neg (by rw [e]; simp [hj])]; exact ih

end QP.Gen

namespace QP.Gen
open QP.Pbrs Spec

/-! ## What two sequences of records make of a member -/

theorem forall2_nil_iff {α β : Type} {R : α → β → Prop} {l : List α} {l' : List β} (h : List.Forall₂ R l l') : l' = [] ↔ l = [] := by
  cases h <;> simp

/-- Records of an arm that replaces. -/
theorem memberAfter_replace {d : RVal} {ix iy : List Item}
    (ha : ∀ u ∈ iy, u.1.choice.isSome = true ∨ u.1.field.boxed = true ∨ u.1.field.frequency.generated = .singular ∨
      (u.1.field.frequency.generated = .arrayLike ∧ u.1.field.isPacked = true)) :
    memberAfter d (ix ++ iy) = if iy = [] then memberAfter d ix else memberAfter d iy := by
  by_cases hy : iy = []
  · simp [hy]
  · rw [if_neg hy]
    unfold memberAfter
    rw [List.getLast?_append]
    cases hl : iy.getLast? with
    | none => exact absurd (List.getLast?_eq_none_iff.mp hl) hy
    | some u =>
      obtain ⟨a, x⟩ := u
      simp only [Option.some_or]
      have := ha _ (List.mem_of_getLast? hl)
      simp only at this
      cases hc : a.choice with
      | some i => rfl
      | none =>
        rw [hc] at this
        rcases this with h | h | h | ⟨h, h'⟩
        · cases h
        · simp only [h, if_true]
        · simp only [h]
        · simp only [h, h', if_true]

theorem obsEntries_insert (k v : RVal) : ∀ l : List (RVal × RVal), RVal.obsEntries (insertKV k v l) = insertKV k.obs v.obs (RVal.obsEntries l)
  | [] => rfl
  | (k', v') :: l => by
    simp only [insertKV, RVal.obsEntries, keyEq_obs]
    cases keyEq k' k with
    | true => rfl
    | false => simp only [Bool.false_eq_true, if_false, RVal.obsEntries, obsEntries_insert k v l]

theorem obsEntries_insertAll : ∀ (l' l : List (RVal × RVal)), RVal.obsEntries (insertAll l l') = insertAll (RVal.obsEntries l) (RVal.obsEntries l')
  | [], l => rfl
  | (k, v) :: l', l => by
    have := obsEntries_insertAll l' (insertKV k v l)
    rw [obsEntries_insert] at this
    exact this

/-- The records of a map field, inserted one by one. -/
def insertItems (l : List (RVal × RVal)) (its : List Item) : List (RVal × RVal) :=
  its.foldl (fun l it => match it.2 with
    | .map [(k, v)] => insertKV k v l
    | _ => l) l

theorem obs_map_one {x : RVal} {e : RVal × RVal} (h : x.obs = (RVal.map [e]).obs) : ∃ k v, x = .map [(k, v)] ∧ k.obs = e.1.obs ∧ v.obs = e.2.obs := by
  obtain ⟨a, b⟩ := e
  cases x <;> simp only [RVal.obs, RVal.obsEntries, reduceCtorEq, RVal.map.injEq] at h
  case map l =>
    match l, h with
    | [(k, v)], h =>
      simp only [RVal.obsEntries, List.cons.injEq, Prod.mk.injEq, and_true] at h
      exact ⟨k, v, rfl, h.1, h.2⟩
    | (_, _) :: (_, _) :: _, h => simp [RVal.obsEntries] at h

theorem obs_insertItems {a : Arm} : ∀ (le : List (RVal × RVal)) (iy : List Item) (l l' : List (RVal × RVal)),
    List.Forall₂ Reread ((le.map fun e => RVal.map [e]).map fun x => (a, x)) iy → RVal.obsEntries l' = RVal.obsEntries l →
    RVal.obsEntries (insertItems l' iy) = RVal.obsEntries (insertAll l le)
  | [], _, l, l', .nil, h => h
  | e :: le, _, l, l', .cons h1 h2, h => by
    rename_i u us
    obtain ⟨b, x⟩ := u
    obtain ⟨k, v, rfl, hk, hv⟩ := obs_map_one h1.2
    refine obs_insertItems le us (insertKV e.1 e.2 l) (insertKV k v l') h2 ?_
    rw [obsEntries_insert, obsEntries_insert, hk, hv, h]

theorem memberAfter_map_items {d : RVal} {l : List (RVal × RVal)} (hd : d = .map l) {j : Nat} {f : Field} (hb : f.boxed = false)
    (hg : f.frequency.generated = .map) {its : List Item} (ha : ∀ u ∈ its, u.1 = ⟨j, f, Option.none⟩) :
    memberAfter d its = .map (insertItems l its) := by
  subst hd
  unfold memberAfter insertItems
  cases hl : its.getLast? with
  | none =>
    rw [List.getLast?_eq_none_iff.mp hl]
    rfl
  | some u =>
    obtain ⟨a, x⟩ := u
    have := ha _ (List.mem_of_getLast? hl)
    simp only at this
    subst this
    simp only [hb, hg, Bool.false_eq_true, if_false]
    rfl

theorem memberAfter_vec_items {d : RVal} (hd : d = .vec []) {j : Nat} {f : Field} (hb : f.boxed = false)
    (hg : f.frequency.generated = .arrayLike) (hp : f.isPacked = false) {its : List Item} (ha : ∀ u ∈ its, u.1 = ⟨j, f, Option.none⟩) :
    memberAfter d its = .vec (its.map (·.2)) := by
  subst hd
  unfold memberAfter
  cases hl : its.getLast? with
  | none =>
    rw [List.getLast?_eq_none_iff.mp hl]
    rfl
  | some u =>
    obtain ⟨a, x⟩ := u
    have := ha _ (List.mem_of_getLast? hl)
    simp only at this
    subst this
    simp only [hb, hg, hp, Bool.false_eq_true, if_false, List.nil_append]

theorem reread_arms {j : Nat} {mem : Member} {C : Ctx} {v : RVal} {us : List Item} (h : List.Forall₂ Reread (memberItems C j mem v) us) :
    ∀ u ∈ us, u.1 ∈ memberArms mem j := by
  have : ∀ it ∈ memberItems C j mem v, it.1 ∈ memberArms mem j := fun it hit =>
    (memberItems_arm (Q := fun _ _ => True) (sub := fun _ _ => True) hit).1
  generalize memberItems C j mem v = its at h this
  induction h with
  | nil => intro u hu; cases hu
  | @cons it u its us h1 h2 ih =>
    intro w hw
    rcases List.mem_cons.mp hw with rfl | hw
    · rw [h1.1]; exact this _ (List.mem_cons_self ..)
    · exact ih (fun it hit => this it (List.mem_cons_of_mem _ hit)) w hw

theorem hasType_notVoid {C : Ctx} {subT : MessageIndex → RVal → Prop} (hsub : ∀ i v, subT i v → v.isVoid = false) {t : FieldType} {x : RVal}
    (h : HasType C subT t x) : x.isVoid = false := by
  cases t <;> simp only [HasType] at h
  case message i => exact hsub i x h
  all_goals first
    | (obtain ⟨y, rfl, _⟩ := h; rfl)
    | (obtain ⟨y, rfl⟩ := h; rfl)

/-- A member after the records of two values of it. -/
theorem member_overlay {C : Ctx} {custom : Bool} {Q : Field → RVal → Prop} {subT : MessageIndex → RVal → Prop} (hsub : ∀ i v, subT i v → v.isVoid = false)
    {j : Nat} {mem : Member} (hok : MemberOk mem) {x y : RVal} (hx : MemberTyped C Q subT mem x) (hy : MemberTyped C Q subT mem y)
    {ix iy : List Item} (rx : List.Forall₂ Reread (memberItems C j mem x) ix) (ry : List.Forall₂ Reread (memberItems C j mem y) iy)
    (ox : (memberAfter (slotDefault C custom mem) ix).obs = x.obs) (oy : (memberAfter (slotDefault C custom mem) iy).obs = y.obs) :
    (memberAfter (slotDefault C custom mem) (ix ++ iy)).obs = (overlayMember C mem x y).obs := by
  have ax := reread_arms rx
  have ay := reread_arms ry
  have ny := forall2_nil_iff ry
  have repl : (∀ u ∈ iy, u.1.choice.isSome = true ∨ u.1.field.boxed = true ∨ u.1.field.frequency.generated = .singular ∨
      (u.1.field.frequency.generated = .arrayLike ∧ u.1.field.isPacked = true)) → ∀ c : Bool, (memberItems C j mem y = [] ↔ c = true) →
      (memberAfter (slotDefault C custom mem) (ix ++ iy)).obs = (if c = true then x else y).obs := by
    intro ha c hc
    rw [memberAfter_replace ha]
    by_cases hn : iy = []
    · rw [if_pos hn, if_pos (hc.mp (ny.mp hn))]; exact ox
    · rw [if_neg hn, if_neg (fun h => hn (ny.mpr (hc.mpr h)))]; exact oy
  cases mem with
  | oneof fs =>
    simp only [overlayMember]
    refine repl (fun u hu => ?_) _ ?_
    · have := ay u hu
      simp only [memberArms, List.mem_map] at this
      obtain ⟨p, _, hp⟩ := this
      rw [← hp]; exact Or.inl rfl
    · rcases hy with rfl | ⟨i, f, z, hf, rfl, hz⟩
      · simp [memberItems, RVal.isVoid]
      · simp [memberItems, RVal.isVoid, hf]
  | field f =>
    simp only [memberArms, List.mem_singleton] at ax ay
    have hbo := (hok : FieldOk f).boxed
    simp only [MemberTyped, FieldTyped] at hx hy
    cases hg : f.frequency.generated with
    | singular =>
      have ha : ∀ u ∈ iy, u.1.choice.isSome = true ∨ u.1.field.boxed = true ∨ u.1.field.frequency.generated = .singular ∨
          (u.1.field.frequency.generated = .arrayLike ∧ u.1.field.isPacked = true) := fun u hu => by
        rw [ay u hu]; exact Or.inr (Or.inr (Or.inl hg))
      simp only [hg] at hy
      simp only [overlayMember, hg]
      cases ho : f.frequency.isOptional with
      | true =>
        simp only [ho, if_true] at hy
        simp only [Bool.true_or, if_true]
        refine repl ha _ ?_
        rcases hy with rfl | ⟨z, rfl, _⟩ <;> simp [memberItems, hg, ho, RVal.isVoid]
      | false =>
        simp only [ho, Bool.false_eq_true, if_false] at hy
        cases hp : f.hasPresence with
        | true =>
          simp only [Bool.or_true, if_true]
          refine repl ha _ ?_
          simp [memberItems, hg, ho, hp, hasType_notVoid hsub hy.1]
        | false =>
          simp only [Bool.or_self, Bool.false_eq_true, if_false]
          refine repl ha _ ?_
          cases hs : scalarEq f.typ y (fieldDefault C f) <;> simp [memberItems, hg, ho, hp, hs]
    | arrayLike =>
      have hnb : f.boxed = false := by
        cases h : f.boxed
        · rfl
        · have h2 := hbo h
          revert h2 hg
          cases f.frequency <;> decide
      simp only [overlayMember, hg]
      cases hp : f.isPacked with
      | true =>
        simp only [if_true]
        refine repl (fun u hu => by rw [ay u hu]; exact Or.inr (Or.inr (Or.inr ⟨hg, hp⟩))) _ ?_
        simp only [hg, isPackedFixed, hp, Bool.true_and] at hy
        simp only [memberItems, hg, hp, if_true, List.map_eq_nil_iff]
        split at hy
        · split at hy
          · obtain ⟨p, rfl, _⟩ := hy
            simp [RVal.isVoid]
          · obtain ⟨p, rfl, _⟩ := hy
            simp [RVal.isVoid]
        · obtain ⟨l, rfl, _⟩ := hy
          simp [RVal.isVoid]
      | false =>
        simp only [hg, isPackedFixed, hp, Bool.false_and, Bool.false_eq_true, if_false] at hx hy
        obtain ⟨lx, rfl, _⟩ := hx
        obtain ⟨ly, rfl, _⟩ := hy
        have hd : slotDefault C custom (.field f) = .vec [] := by simp [slotDefault, hnb, hg, isPackedFixed, hp]
        rw [memberAfter_vec_items hd hnb hg hp ax] at ox
        rw [memberAfter_vec_items hd hnb hg hp ay] at oy
        rw [memberAfter_vec_items hd hnb hg hp (fun u hu => (List.mem_append.mp hu).elim (ax u) (ay u))]
        simp only [RVal.obs, RVal.vec.injEq, obsList_eq] at ox oy ⊢
        simp only [Bool.false_eq_true, if_false, RVal.obs, obsList_eq, List.map_append, ox, oy]
    | map =>
      have hnb : f.boxed = false := by
        cases h : f.boxed
        · rfl
        · have h2 := hbo h
          revert h2 hg
          cases f.frequency <;> decide
      simp only [hg] at hx hy
      obtain ⟨k, t, lx, ht, rfl, _, _⟩ := hx
      obtain ⟨k', t', ly, ht', rfl, _, _⟩ := hy
      have hd : slotDefault C custom (.field f) = .map [] := by simp [slotDefault, hnb, hg]
      rw [memberAfter_map_items hd hnb hg ax] at ox
      rw [memberAfter_map_items hd hnb hg (fun u hu => (List.mem_append.mp hu).elim (ax u) (ay u))]
      have happ : insertItems [] (ix ++ iy) = insertItems (insertItems [] ix) iy := by
        unfold insertItems; rw [List.foldl_append]
      rw [happ]
      simp only [overlayMember, hg, RVal.obs, RVal.map.injEq] at ox ⊢
      simp only [memberItems, hg] at ry
      exact obs_insertItems ly iy lx _ ry ox

theorem pfElems_owned {k : Nat} (l : List (BitVec (8 * k))) : pfElems (.owned l) = l := rfl

/-- Where the two values are apart, this is the merge of the guide. -/
theorem overlay_merge {C : Ctx} {Q : Field → RVal → Prop} {subT : MessageIndex → RVal → Prop} (sub : MessageIndex → RVal → RVal → RVal)
    (hsub : ∀ i v, subT i v → v.isVoid = false) {mem : Member} {x y : RVal} (hx : MemberTyped C Q subT mem x) (hy : MemberTyped C Q subT mem y)
    (ha : Apart mem x y) : (overlayMember C mem x y).obs = (mergeMember C sub mem x y).obs := by
  have hv : ∀ t, (∀ i, t ≠ .message i) → ∀ a b, mergeValue sub t a b = b := by
    intro t ht a b
    cases t <;> first | rfl | exact absurd rfl (ht _)
  cases mem with
  | oneof fs =>
    simp only [overlayMember, mergeMember]
    rcases hx with rfl | ⟨i, f, a, hf, rfl, hxa⟩
    · rcases hy with rfl | ⟨i', f', b, hf', rfl, hyb⟩ <;> simp [RVal.isVoid]
    · rcases hy with rfl | ⟨i', f', b, hf', rfl, hyb⟩
      · simp [RVal.isVoid]
      · simp only [RVal.isVoid, Bool.false_eq_true, if_false]
        by_cases he : i = i'
        · subst he
          rw [if_pos rfl, hf]
          simp only
          rw [hv _ (ha i f a b rfl rfl hf)]
        · rw [if_neg he]
  | field f =>
    simp only [MemberTyped, FieldTyped] at hx hy
    simp only [Apart] at ha
    simp only [overlayMember, mergeMember]
    cases hg : f.frequency.generated with
    | singular =>
      simp only [hg] at hx hy ha ⊢
      cases ho : f.frequency.isOptional with
      | true =>
        simp only [ho, if_true] at hx hy
        simp only [Bool.true_or, if_true]
        rcases hx with rfl | ⟨a, rfl, hxa⟩
        · rcases hy with rfl | ⟨b, rfl, hyb⟩ <;> simp [RVal.isVoid]
        · rcases hy with rfl | ⟨b, rfl, hyb⟩
          · simp [RVal.isVoid]
          · simp only [RVal.isVoid, Bool.false_eq_true, if_false]
            rw [hv]
            intro i hi
            have := ha ⟨i, hi⟩
            simp [RVal.isVoid] at this
      | false =>
        simp only [ho, Bool.false_eq_true, if_false] at hx hy
        have h1 := hasType_notVoid hsub hx.1
        have h2 := hasType_notVoid hsub hy.1
        have h3 : mergeValue sub f.typ x y = y := hv _ (fun i hi => by
          have := ha ⟨i, hi⟩
          simp [h1, h2] at this) x y
        simp only [h3, h2, Bool.false_or, Bool.false_eq_true, if_false]
    | arrayLike =>
      simp only [hg] at hx hy ha ⊢
      cases hp : f.isPacked with
      | false =>
        simp only [isPackedFixed, hp, Bool.false_and, Bool.false_eq_true, if_false] at hx hy
        obtain ⟨lx, rfl, _⟩ := hx
        obtain ⟨ly, rfl, _⟩ := hy
        simp
      | true =>
        have hv := ha hp
        simp only [if_true]
        simp only [isPackedFixed, hp, Bool.true_and] at hx hy
        split at hx
        · split at hx
          · rename_i h1 h2
            rw [if_pos h1, if_pos h2] at hy
            obtain ⟨p, rfl, _⟩ := hx
            obtain ⟨q, rfl, _⟩ := hy
            simp only [RVal.isVoid, List.isEmpty_iff] at hv ⊢
            rcases hv with hv | hv
            · by_cases hq : pfElems q = []
              · simp only [hq, hv, if_true, RVal.obs, pfElems_owned, List.append_nil]
              · simp only [hq, hv, if_false, RVal.obs, pfElems_owned, List.nil_append]
            · simp only [hv, if_true, RVal.obs, pfElems_owned, List.append_nil]
          · rename_i h1 h2
            rw [if_pos h1, if_neg h2] at hy
            obtain ⟨p, rfl, _⟩ := hx
            obtain ⟨q, rfl, _⟩ := hy
            simp only [RVal.isVoid, List.isEmpty_iff] at hv ⊢
            rcases hv with hv | hv
            · by_cases hq : pfElems q = []
              · simp only [hq, hv, if_true, RVal.obs, pfElems_owned, List.append_nil]
              · simp only [hq, hv, if_false, RVal.obs, pfElems_owned, List.nil_append]
            · simp only [hv, if_true, RVal.obs, pfElems_owned, List.append_nil]
        · rename_i h1
          rw [if_neg h1] at hy
          obtain ⟨lx, rfl, _⟩ := hx
          obtain ⟨ly, rfl, _⟩ := hy
          simp only [RVal.isVoid, List.isEmpty_iff] at hv ⊢
          rcases hv with rfl | rfl
          · cases ly <;> simp
          · simp
    | map =>
      simp only [hg] at hx hy ⊢

end QP.Gen
