import Verif.Spec.MapOrder
import Verif.Props.Messages
import Verif.Props.Example
set_option linter.unusedVariables false
/-!
# The order in which maps are iterated (C97)
-/

namespace QP.Gen
open QP.Pbrs Spec

theorem SameAll.refl : ∀ l, SameAll l l
  | [] => .nil
  | v :: l => .cons (.refl v) (SameAll.refl l)

theorem SameEntries.refl : ∀ l, SameEntries l l
  | [] => .nil
  | (_, v) :: l => .cons (.refl v) (SameEntries.refl l)

/-! ## Sizes -/

theorem perm_sum {l l' : List Nat} (h : l.Perm l') : l.sum = l'.sum := by
  induction h with
  | nil => rfl
  | cons x _ ih => rw [List.sum_cons, List.sum_cons, ih]
  | swap x y l => simp only [List.sum_cons]; omega
  | trans _ _ h1 h2 => rw [h1, h2]

theorem sameAll_map {f : RVal → Nat} (hf : ∀ x y, Same x y → f y = f x) : ∀ {l l' : List RVal}, SameAll l l' → l'.map f = l.map f
  | _, _, .nil => rfl
  | _, _, .cons h t => by rw [List.map_cons, List.map_cons, hf _ _ h, sameAll_map hf t]

theorem sameEntries_map {f : RVal × RVal → Nat} (hf : ∀ k x y, Same x y → f (k, y) = f (k, x)) :
    ∀ {l l' : List (RVal × RVal)}, SameEntries l l' → l'.map f = l.map f
  | _, _, .nil => rfl
  | _, _, .cons h t => by rw [List.map_cons, List.map_cons, hf _ _ _ h, sameEntries_map hf t]

theorem sameAll_length : ∀ {l l' : List RVal}, SameAll l l' → l'.length = l.length
  | _, _, .nil => rfl
  | _, _, .cons h t => by rw [List.length_cons, List.length_cons, sameAll_length t]

theorem sameAll_isEmpty {l l' : List RVal} (h : SameAll l l') : l'.isEmpty = l.isEmpty := by cases h <;> rfl

section
variable {C : Ctx} {wr : MessageIndex → MessageWrite RVal} (hw : ∀ i v w, Same v w → (wr i).get_size w = (wr i).get_size v)
include hw

theorem sizeTyp_same {t : FieldType} {v w : RVal} (h : Same v w) : sizeTyp wr t w = sizeTyp wr t v := by
  cases t with
  | message m => simp only [sizeTyp, hw m v w h]
  | _ => cases h <;> rfl

theorem sizeField_same {f : Field} {v w : RVal} (h : Same v w) : sizeField C wr f w = sizeField C wr f v := by
  unfold sizeField
  cases f.frequency.generated with
  | singular =>
    dsimp only
    cases f.hasPresence <;> cases f.frequency.isOptional
    · have hs : scalarEq f.typ w (fieldDefault C f) = scalarEq f.typ v (fieldDefault C f) := by cases h <;> rfl
      simp only [hs, sizeTyp_same hw h]
    · rfl
    · simp only [sizeTyp_same hw h]
    · cases h with
      | some h => simp only [sizeTyp_same hw h]
      | _ => rfl
  | arrayLike =>
    dsimp only
    cases f.isPacked
    · cases h with
      | vec h =>
        simp only [Bool.false_eq_true, if_false]
        rw [sameAll_length h, sameAll_map (f := fun x => sizeofVarint f.tag + sizeTyp wr f.typ x) (fun x y h => by rw [sizeTyp_same hw h]) h]
      | _ => rfl
    · cases h with
      | vec h =>
        simp only [if_true]
        rw [sameAll_isEmpty h, sameAll_map (f := sizeTyp wr f.typ) (fun x y h => sizeTyp_same hw h) h]
      | _ => rfl
  | map =>
    dsimp only
    cases f.typ with
    | map k t =>
      cases h with
      | @map l l₁ l' he hp =>
        dsimp only
        have := perm_sum (hp.map (fun kv => sizeofVarint f.tag + sizeof_len (sizeEntry wr k t kv)))
        rw [← this, sameEntries_map (f := fun kv => sizeofVarint f.tag + sizeof_len (sizeEntry wr k t kv)) (fun a x y h => by
          simp only [sizeEntry, sizeTyp_same hw h]) he]
      | _ => rfl
    | _ => rfl

theorem sizeMember_same {mem : Member} {v w : RVal} (h : Same v w) : sizeMember C wr mem w = sizeMember C wr mem v := by
  cases mem with
  | field f => exact sizeField_same hw h
  | oneof fs =>
    unfold sizeMember
    cases h with
    | @choice i v w h =>
      dsimp only
      cases fs[i]? with
      | none => rfl
      | some f => simp only [sizeTyp_same hw h]
    | _ => rfl

end

theorem slots_same {v w : RVal} (h : Same v w) : SameAll v.slots w.slots := by
  cases h with
  | refl => exact SameAll.refl _
  | struct h => exact h
  | _ => exact .nil

theorem zipWith_same {f : Member → RVal → Nat} (hf : ∀ m x y, Same x y → f m y = f m x) :
    ∀ (ms : List Member) {l l' : List RVal}, SameAll l l' → List.zipWith f ms l' = List.zipWith f ms l
  | [], _, _, _ => by simp
  | m :: ms, _, _, .nil => rfl
  | m :: ms, _, _, .cons h t => by rw [List.zipWith_cons_cons, List.zipWith_cons_cons, hf _ _ _ h, zipWith_same hf ms t]

/-- The size of a message does not depend on the order of its maps. -/
theorem C97_size (C : Ctx) : ∀ (n : Nat) (idx : MessageIndex) (v w : RVal), Same v w →
    (writeImpl C n idx).get_size w = (writeImpl C n idx).get_size v
  | 0, _, _, _, _ => rfl
  | n + 1, idx, v, w, h => by
    rw [writeImpl]
    cases C.D.getMessage idx with
    | none => rfl
    | some m =>
      dsimp only
      rw [zipWith_same (f := sizeMember C (writeImpl C n)) (fun mem x y h => sizeMember_same (C97_size C n) h) _ (slots_same h)]

/-! ## Types -/

theorem hasType_same {C : Ctx} {sub : MessageIndex → RVal → Prop} (hsub : ∀ i v w, sub i v → Same v w → sub i w) {t : FieldType} {v w : RVal}
    (ht : HasType C sub t v) (h : Same v w) : HasType C sub t w ∧ ((∀ m, t ≠ .message m) → w = v) := by
  cases t with
  | message m => exact ⟨hsub m v w ht h, fun hm => absurd rfl (hm m)⟩
  | map k v => exact ht.elim
  | messageOrEnum n => exact ht.elim
  | enum e => obtain ⟨x, rfl, hx⟩ := ht; cases h; exact ⟨⟨x, rfl, hx⟩, fun _ => rfl⟩
  | stringCow => obtain ⟨x, rfl, hx⟩ := ht; cases h; exact ⟨⟨x, rfl, hx⟩, fun _ => rfl⟩
  | string_ => obtain ⟨x, rfl, hx⟩ := ht; cases h; exact ⟨⟨x, rfl, hx⟩, fun _ => rfl⟩
  | _ => obtain ⟨x, rfl⟩ := ht; cases h; exact ⟨⟨x, rfl⟩, fun _ => rfl⟩

theorem sameAll_mem : ∀ {l l' : List RVal}, SameAll l l' → ∀ y ∈ l', ∃ x ∈ l, Same x y
  | _, _, .nil, _, h => by cases h
  | _, _, .cons h t, y, hy => by
    cases hy with
    | head => exact ⟨_, List.mem_cons_self, h⟩
    | tail _ hy =>
      obtain ⟨x, hx, hs⟩ := sameAll_mem t y hy
      exact ⟨x, List.mem_cons_of_mem _ hx, hs⟩

theorem sameEntries_mem : ∀ {l l' : List (RVal × RVal)}, SameEntries l l' → ∀ y ∈ l', ∃ x ∈ l, x.1 = y.1 ∧ Same x.2 y.2
  | _, _, .nil, _, h => by cases h
  | _, _, .cons h t, y, hy => by
    cases hy with
    | head => exact ⟨_, List.mem_cons_self, rfl, h⟩
    | tail _ hy =>
      obtain ⟨x, hx, hs⟩ := sameEntries_mem t y hy
      exact ⟨x, List.mem_cons_of_mem _ hx, hs⟩

theorem sameEntries_keys : ∀ {l l' : List (RVal × RVal)}, SameEntries l l' → l'.map (·.1) = l.map (·.1)
  | _, _, .nil => rfl
  | _, _, .cons h t => by rw [List.map_cons, List.map_cons, sameEntries_keys t]

theorem keyEq_comm (a b : RVal) : keyEq a b = keyEq b a := by
  cases a <;> cases b <;> first | rfl | (simp only [keyEq, scalarEq]; exact Bool.beq_comm)

theorem pairwise_same {l l₁ l' : List (RVal × RVal)} (he : SameEntries l l₁) (hp : l₁.Perm l') (h : l.Pairwise (fun a b => keyEq a.1 b.1 = false)) :
    l'.Pairwise (fun a b => keyEq a.1 b.1 = false) := by
  have h1 : (l.map (·.1)).Pairwise (fun a b => keyEq a b = false) := List.pairwise_map.mpr h
  rw [← sameEntries_keys he] at h1
  exact hp.pairwise (List.pairwise_map.mp h1) (fun {a b} h => by rw [keyEq_comm]; exact h)

/-- The restriction on fields without presence is one on single values. -/
def Scalar (Q : Field → RVal → Prop) : Prop := ∀ f v w, Same v w → Q f v → Q f w

theorem plain_scalar : Scalar Plain := by
  intro f v w h ⟨h1, h2, h3⟩
  refine ⟨h1, fun hf hw => ?_, fun hf hw => ?_⟩
  · subst hw; cases h; exact h2 hf rfl
  · subst hw; cases h; exact h3 hf rfl

theorem memberTyped_same {C : Ctx} {Q : Field → RVal → Prop} (hQ : Scalar Q) {sub : MessageIndex → RVal → Prop}
    (hsub : ∀ i v w, sub i v → Same v w → sub i w) {mem : Member} {v w : RVal} (ht : MemberTyped C Q sub mem v) (h : Same v w) :
    MemberTyped C Q sub mem w := by
  cases mem with
  | oneof fs =>
    rcases ht with rfl | ⟨i, f, x, hf, rfl, hx⟩
    · cases h; exact Or.inl rfl
    · cases h with
      | refl => exact Or.inr ⟨i, f, x, hf, rfl, hx⟩
      | choice h => exact Or.inr ⟨i, f, _, hf, rfl, (hasType_same hsub hx h).1⟩
  | field f =>
    have ht : FieldTyped C Q sub f v := ht
    show FieldTyped C Q sub f w
    unfold FieldTyped at ht ⊢
    cases hg : f.frequency.generated <;> simp only [hg] at ht ⊢
    · cases ho : f.frequency.isOptional <;> simp only [ho, Bool.false_eq_true, if_false, if_true] at ht ⊢
      · exact ⟨(hasType_same hsub ht.1 h).1, fun hp => hQ f v w h (ht.2 hp)⟩
      · rcases ht with rfl | ⟨x, rfl, hx⟩
        · cases h; exact Or.inl rfl
        · cases h with
          | refl => exact Or.inr ⟨x, rfl, hx⟩
          | some h => exact Or.inr ⟨_, rfl, (hasType_same hsub hx h).1⟩
    · split at ht
      · rename_i hp
        rw [if_pos hp]
        split at ht
        · rename_i h1
          rw [if_pos h1]
          obtain ⟨p, rfl, hp⟩ := ht
          cases h; exact ⟨p, rfl, hp⟩
        · rename_i h1
          rw [if_neg h1]
          obtain ⟨p, rfl, hp⟩ := ht
          cases h; exact ⟨p, rfl, hp⟩
      · rename_i hp
        rw [if_neg hp]
        obtain ⟨l, rfl, hl⟩ := ht
        cases h with
        | refl => exact ⟨l, rfl, hl⟩
        | vec h =>
          refine ⟨_, rfl, fun y hy => ?_⟩
          obtain ⟨x, hx, hs⟩ := sameAll_mem h y hy
          exact (hasType_same hsub (hl x hx) hs).1
    · obtain ⟨k, t, l, hk, rfl, hl, hd⟩ := ht
      cases h with
      | refl => exact ⟨k, t, l, hk, rfl, hl, hd⟩
      | @map _ l₁ l' he hp =>
        refine ⟨k, t, l', hk, rfl, fun e hm => ?_, pairwise_same he hp hd⟩
        obtain ⟨x, hx, h1, h2⟩ := sameEntries_mem he e (hp.mem_iff.mpr hm)
        rw [← h1]
        exact ⟨(hl x hx).1, (hasType_same hsub (hl x hx).2 h2).1⟩

theorem sameAll_zip : ∀ (ms : List Member) {l l' : List RVal}, SameAll l l' → ∀ p ∈ ms.zip l', ∃ x, (p.1, x) ∈ ms.zip l ∧ Same x p.2
  | [], _, _, _, p, h => by simp at h
  | m :: ms, _, _, .nil, p, h => by simp at h
  | m :: ms, _, _, .cons hs t, p, h => by
    rw [List.zip_cons_cons] at h ⊢
    cases h with
    | head => exact ⟨_, List.mem_cons_self, hs⟩
    | tail _ h =>
      obtain ⟨x, hx, h⟩ := sameAll_zip ms t p h
      exact ⟨x, List.mem_cons_of_mem _ hx, h⟩

/-- Whatever the order of its maps, a value has the same type. -/
theorem typed_same {C : Ctx} {Q : Field → RVal → Prop} (hQ : Scalar Q) : ∀ (n : Nat) (idx : MessageIndex) (v w : RVal), WellTyped C Q n idx v → Same v w →
    WellTyped C Q n idx w
  | 0, _, _, _, h, _ => h.elim
  | n + 1, idx, v, w, ⟨m, slots, hm, hv, hl, ht⟩, h => by
    subst hv
    have := slots_same h
    cases h with
    | refl => exact ⟨m, slots, hm, rfl, hl, ht⟩
    | @struct _ l' h =>
      refine ⟨m, l', hm, rfl, by rw [sameAll_length h, hl], fun p hp => ?_⟩
      obtain ⟨x, hx, hs⟩ := sameAll_zip _ h p hp
      exact memberTyped_same hQ (typed_same hQ n) (ht (p.1, x) hx) hs

mutual
theorem obs_same : ∀ {v w : RVal}, Same v w → Same v.obs w.obs
  | _, _, .refl v => .refl _
  | _, _, .some h => by simp only [RVal.obs]; exact .some (obs_same h)
  | _, _, .choice h => by simp only [RVal.obs]; exact .choice (obs_same h)
  | _, _, .vec h => by simp only [RVal.obs]; exact .vec (obsList_same h)
  | _, _, .struct h => by simp only [RVal.obs]; exact .struct (obsList_same h)
  | _, _, .map he hp => by simp only [RVal.obs]; exact .map (obsEntries_same he) (by
      have : ∀ l, RVal.obsEntries l = l.map (fun e => (e.1.obs, e.2.obs)) := by
        intro l
        induction l with
        | nil => rfl
        | cons e l ih => obtain ⟨a, b⟩ := e; rw [RVal.obsEntries, ih]; rfl
      rw [this, this]
      exact hp.map _)
theorem obsList_same : ∀ {l l' : List RVal}, SameAll l l' → SameAll (RVal.obsList l) (RVal.obsList l')
  | _, _, .nil => .nil
  | _, _, .cons h t => .cons (obs_same h) (obsList_same t)
theorem obsEntries_same : ∀ {l l' : List (RVal × RVal)}, SameEntries l l' → SameEntries (RVal.obsEntries l) (RVal.obsEntries l')
  | _, _, .nil => .nil
  | _, _, .cons h t => .cons (obs_same h) (obsEntries_same t)
end

/-- Two equal messages whose maps are iterated in different orders: both can be written, with the same number of bytes, and what is read from
the two is again the same but for the order of maps. -/
theorem C97_order (C : Ctx) (hT : C.T.bigEndian = false) (hS : SchemaOk C) (hD : IsDefault C) (n : Nat) (idx : MessageIndex) (v w : RVal)
    (hv : WellTyped C Plain n idx v) (h : Same v w) (hsz : (writeImpl C n idx).get_size v < 2 ^ 32)
    (hbits : sizeof_len ((writeImpl C n idx).get_size v) < 2 ^ C.T.usizeBits) :
    ∃ b b', serialize_into_vec (writeImpl C n idx) v = .ok b ∧ serialize_into_vec (writeImpl C n idx) w = .ok b' ∧ b'.length = b.length ∧
      ∀ fuel, b.length ≤ fuel → ∃ x y, deserialize_from_slice C.T (fromReader C fuel idx) b = .ok x ∧
        deserialize_from_slice C.T (fromReader C fuel idx) b' = .ok y ∧ x.obs = v.obs ∧ y.obs = w.obs ∧ Same x.obs y.obs := by
  have hw := typed_same plain_scalar n idx v w hv h
  have hs := C97_size C n idx v w h
  have hsz' : (writeImpl C n idx).get_size w < 2 ^ 32 := by rw [hs]; exact hsz
  have hbits' : sizeof_len ((writeImpl C n idx).get_size w) < 2 ^ C.T.usizeBits := by rw [hs]; exact hbits
  obtain ⟨b, h1, h2⟩ := C33_roundtrip C hT hS hD n idx v hv hsz hbits
  obtain ⟨b', h3, h4⟩ := C33_roundtrip C hT hS hD n idx w hw hsz' hbits'
  have hl : b'.length = b.length := by
    obtain ⟨c, k1, _, k2, _⟩ := C27_vec_slice_agree _ _ _ (exactWrite C hT hS n idx v hv (by omega))
    obtain ⟨c', k3, _, k4, _⟩ := C27_vec_slice_agree _ _ _ (exactWrite C hT hS n idx w hw (by omega))
    cases h1.symm.trans k1
    cases h3.symm.trans k3
    rw [k2, k4, hs]
  refine ⟨b, b', h1, h3, hl, fun fuel hf => ?_⟩
  obtain ⟨x, hx, ox⟩ := h2 fuel hf
  obtain ⟨y, hy, oy⟩ := h4 fuel (by omega)
  exact ⟨x, y, hx, hy, ox, oy, by rw [ox, oy]; exact obs_same h⟩

/-! ## Ordered maps -/

mutual
theorem ascending_same {lt : RVal → RVal → Prop} (hlt : ∀ a b, lt a b → ¬ lt b a) : ∀ {v w : RVal}, Same v w → v.Ascending lt → w.Ascending lt → v = w
  | _, _, .refl v, _, _ => rfl
  | _, _, .some h, a, b => by simp only [RVal.Ascending] at a b; rw [ascending_same hlt h a b]
  | _, _, .choice h, a, b => by simp only [RVal.Ascending] at a b; rw [ascending_same hlt h a b]
  | _, _, .vec h, a, b => by simp only [RVal.Ascending] at a b; rw [ascendingAll_same hlt h a b]
  | _, _, .struct h, a, b => by simp only [RVal.Ascending] at a b; rw [ascendingAll_same hlt h a b]
  | _, _, .map (l := l) (l₁ := l₁) (l' := l') he hp, a, b => by
    simp only [RVal.Ascending] at a b
    have h1 : (l.map (·.1)).Pairwise lt := List.pairwise_map.mpr a.1
    rw [← sameEntries_keys he] at h1
    have h2 : l₁.Pairwise (fun a b => lt a.1 b.1) := List.pairwise_map.mp h1
    have : l₁ = l' := hp.eq_of_pairwise (fun x y _ _ h1 h2 => absurd h2 (hlt _ _ h1)) h2 b.1
    subst this
    rw [ascendingValues_same hlt he a.2 b.2]
theorem ascendingAll_same {lt : RVal → RVal → Prop} (hlt : ∀ a b, lt a b → ¬ lt b a) : ∀ {l l' : List RVal}, SameAll l l' → RVal.AscendingAll lt l →
    RVal.AscendingAll lt l' → l = l'
  | _, _, .nil, _, _ => rfl
  | _, _, .cons h t, a, b => by
    simp only [RVal.AscendingAll] at a b
    rw [ascending_same hlt h a.1 b.1, ascendingAll_same hlt t a.2 b.2]
theorem ascendingValues_same {lt : RVal → RVal → Prop} (hlt : ∀ a b, lt a b → ¬ lt b a) : ∀ {l l' : List (RVal × RVal)}, SameEntries l l' →
    RVal.AscendingValues lt l → RVal.AscendingValues lt l' → l = l'
  | _, _, .nil, _, _ => rfl
  | _, _, .cons h t, a, b => by
    simp only [RVal.AscendingValues] at a b
    rw [ascending_same hlt h a.1 b.1, ascendingValues_same hlt t a.2 b.2]
end

/-- With ordered maps (`BTreeMap`, whatever the order of the keys) equal messages are written with the same bytes. -/
theorem C97_deterministic {lt : RVal → RVal → Prop} (hlt : ∀ a b, lt a b → ¬ lt b a) (C : Ctx) (n : Nat) (idx : MessageIndex) {v w : RVal} (h : Same v w)
    (hv : v.Ascending lt) (hw : w.Ascending lt) : serialize_into_vec (writeImpl C n idx) w = serialize_into_vec (writeImpl C n idx) v := by
  rw [ascending_same hlt h hv hw]

/-! ## Examples -/

/-- The value of `Example`, its map iterated the other way round. -/
def Example.value' : RVal :=
  .struct [.w32 (-1), .bytes [0x61#8], .vec [.w64 (-5), .w64 3], .pf32 (.borrowed [1#8, 2#8, 3#8, 4#8]),
    .vec [.bytes [0x62#8], .bytes []], .map [(.bytes [], .w32 0), (.bytes [0x6b#8], .w32 7)], .some leaf,
    .w32 0xc0490fdb#32, .w32 0, .choice 1 (.bytes [0xff#8])]

theorem Example.value_same : Same Example.value Example.value' :=
  .struct (.cons (.refl _) (.cons (.refl _) (.cons (.refl _) (.cons (.refl _) (.cons (.refl _) (.cons (.map (SameEntries.refl _) (List.Perm.swap _ _ _))
    (SameAll.refl _)))))))

/-- The hypotheses of `C97_order` are met by two values that differ. -/
theorem C97_example : ∃ b b', serialize_into_vec (writeImpl (Example.ctx Target.debug64) 2 [0]) Example.value = .ok b ∧
    serialize_into_vec (writeImpl (Example.ctx Target.debug64) 2 [0]) Example.value' = .ok b' ∧ b'.length = b.length := by
  obtain ⟨b, b', h1, h2, h3, _⟩ := C97_order (Example.ctx Target.debug64) rfl (Example.schemaOk _) (Example.isDefault _) 2 [0] Example.value Example.value'
    (Example.value_typed _ 0) Example.value_same (by decide) (by decide)
  exact ⟨b, b', h1, h2, h3⟩

/-- With `HashMap`s the bytes depend on the order: equal messages can have different encodings. -/
theorem C97_not_deterministic : Same Example.value Example.value' ∧
    serialize_into_vec (writeImpl (Example.ctx Target.debug64) 2 [0]) Example.value ≠
      serialize_into_vec (writeImpl (Example.ctx Target.debug64) 2 [0]) Example.value' := by
  refine ⟨Example.value_same, fun h => ?_⟩
  have : (match serialize_into_vec (writeImpl (Example.ctx Target.debug64) 2 [0]) Example.value,
      serialize_into_vec (writeImpl (Example.ctx Target.debug64) 2 [0]) Example.value' with
    | .ok a, .ok b => decide (a = b) | _, _ => true) = false := by decide +kernel
  rw [h] at this
  revert this
  cases serialize_into_vec (writeImpl (Example.ctx Target.debug64) 2 [0]) Example.value' <;> simp

end QP.Gen
