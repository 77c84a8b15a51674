import Verif.Proofs.Concat
import Verif.Spec.Compat
import Verif.Props.Messages
/-!
# Compatibility properties of generated decoders (C34 – C36)
-/

set_option linter.unusedVariables false

namespace QP.Gen
open QP.Pbrs Spec BytesReader

/-- Decode `b` on top of an existing value: the generated loop (types.rs 1684-1710) with `start` in
place of `Self::default()`. A message without members ignores its input (types.rs 1669-1676). -/
def decodeInto (C : Ctx) (idx : MessageIndex) (start : RVal) (b : Bytes) : Out RVal :=
  match C.D.getMessage idx with
  | Option.none => .panic
  | Option.some m =>
    if m.isUnit then .ok (C.dflt idx)
    else
      ((do
        let slots ← whileNotEof (msgStep C (fromReader C b.length) (b.length + 1) (arms C.cfg m) b) (b.length + 1)
          start.slots
        pure (.struct slots) : RM RVal) (from_bytes b)).1

/-- Decoding is decoding on top of the default. -/
theorem decodeInto_default (C : Ctx) (idx : MessageIndex) (b : Bytes) :
    decodeInto C idx (C.dflt idx) b = decode C idx b := by
  unfold decodeInto decode
  cases h : C.D.getMessage idx with
  | none => rw [fromReader_none _ h]; rfl
  | some m =>
    cases hu : m.isUnit
    · rw [fromReader_msg _ h hu]; simp only [hu, Bool.false_eq_true, if_false]
    · rw [fromReader_unit _ h hu]; simp only [hu, if_true]; rfl

/-! ## C36: concatenation -/

/-- **C36**, concatenation. With overflow checks: if `a` decodes to `v` then decoding `a ++ b` is decoding
`b` on top of `v`, for every `b`, including those that are not decodable. -/
theorem C36_concat (C : Ctx) (hT : C.T.overflowChecks = true) (hS : SchemaOk C) (idx : MessageIndex) (a b : Bytes)
    (v : RVal) (hR : Roomy C.T (a ++ b)) (h : decode C idx a = .ok v) :
    decode C idx (a ++ b) = decodeInto C idx v b := by
  have hRa : Roomy C.T a := by unfold Roomy at *; simp only [List.length_append] at hR; omega
  rw [C63_decode_iff C hT hS idx a hRa v, denotes_unfold] at h
  obtain ⟨m, hm, h⟩ := h
  rw [← decodeInto_default]
  unfold decodeInto
  simp only [hm]
  cases hu : m.isUnit
  · rw [hu] at h
    simp only [Bool.false_eq_true, if_false] at h ⊢
    obtain ⟨slots, ⟨us, hp, rfl⟩, rfl⟩ := h
    have := loop_concat hT hS hm hR hp (C.dflt idx).slots (a ++ b).length (Nat.le_refl _)
    simp only [SM.bind_run, from_bytes] at this ⊢
    rw [show (RVal.struct (slotsAfter (C.dflt idx).slots us)).slots = slotsAfter (C.dflt idx).slots us from rfl]
    revert this
    rcases whileNotEof (msgStep C (fromReader C (a ++ b).length) ((a ++ b).length + 1) (arms C.cfg m) (a ++ b))
      ((a ++ b).length + 1) (C.dflt idx).slots ⟨0, (a ++ b).length⟩ with ⟨o1, r1⟩
    rcases whileNotEof (msgStep C (fromReader C b.length) (b.length + 1) (arms C.cfg m) b)
      (b.length + 1) (slotsAfter (C.dflt idx).slots us) ⟨0, b.length⟩ with ⟨o2, r2⟩
    rintro rfl
    cases o1 <;> rfl
  · simp

/-! ## C34: unknown fields -/

theorem UnknownRecord.record {C : Ctx} {m : Message} {r : Bytes} (h : UnknownRecord C m r)
    (sub : MessageIndex → Bytes → RVal → Prop) : Record C sub m r Option.none := by
  obtain ⟨g, p, h1, h2, h3, rfl⟩ := h
  exact ⟨g, p, h1, rfl, Or.inr ⟨h2, h3, rfl⟩⟩

theorem slotsAfter_unknown (d : List RVal) (us vs : List (Option Item)) :
    slotsAfter d (us ++ Option.none :: vs) = slotsAfter d (us ++ vs) := by
  unfold slotsAfter
  simp [List.filterMap_append, List.filterMap_cons]

/-- A message that is a sequence of records denotes what they add up to. -/
theorem denotes_records {C : Ctx} {idx : MessageIndex} {m : Message} (hm : C.D.getMessage idx = Option.some m)
    {b : Bytes} {us : List (Option Item)} (h : Parses (Record C (Denotes C) m) b us) :
    Denotes C idx b (if m.isUnit then C.dflt idx else .struct (slotsAfter (C.dflt idx).slots us)) := by
  rw [denotes_unfold]
  refine ⟨m, hm, ?_⟩
  cases hu : m.isUnit
  · simp only [Bool.false_eq_true, if_false]
    exact ⟨_, ⟨us, h, rfl⟩, rfl⟩
  · simp

/-- **C34**, top level. With overflow checks: if `a` decodes, and `r` is a well-formed field the message
does not know, then `r` after `a` makes no difference, whatever follows. -/
theorem C34_unknown_field_ignored (C : Ctx) (hT : C.T.overflowChecks = true) (hS : SchemaOk C) (idx : MessageIndex)
    (m : Message) (hm : C.D.getMessage idx = Option.some m) (a r c : Bytes) (v : RVal)
    (hR : Roomy C.T (a ++ r ++ c)) (ha : decode C idx a = .ok v) (hr : UnknownRecord C m r) :
    decode C idx (a ++ r ++ c) = decode C idx (a ++ c) := by
  unfold Roomy at hR
  simp only [List.length_append] at hR
  have h2 : decode C idx (a ++ r) = .ok v := by
    rw [C63_decode_iff C hT hS idx _ (by unfold Roomy; omega), denotes_unfold] at ha
    rw [C63_decode_iff C hT hS idx _ (by unfold Roomy; simp only [List.length_append]; omega), denotes_unfold]
    obtain ⟨m', hm', h⟩ := ha
    rw [hm] at hm'
    cases hm'
    refine ⟨m, hm, ?_⟩
    cases hu : m.isUnit
    · rw [hu] at h
      simp only [Bool.false_eq_true, if_false] at h ⊢
      obtain ⟨slots, ⟨us, hp, rfl⟩, rfl⟩ := h
      refine ⟨_, ⟨us ++ [Option.none], hp.append ?_, rfl⟩, ?_⟩
      · have := Parses.cons (hr.record (Denotes C)) Parses.nil
        rwa [List.append_nil] at this
      · rw [slotsAfter_unknown, List.append_nil]
    · rw [hu] at h
      exact h
  rw [C36_concat C hT hS idx (a ++ r) c v (by unfold Roomy; simp only [List.length_append]; omega) h2,
    C36_concat C hT hS idx a c v (by unfold Roomy; simp only [List.length_append]; omega) ha]

theorem Arm.isValue.dec {C : Ctx} {sub : MessageIndex → Bytes → RVal → Prop} {a : Arm} (h : a.isValue = true)
    {p : Bytes} {x : RVal} (hd : DecTyp C sub a.field.typ p x) : DecArm C sub a p x := by
  unfold DecArm
  by_cases h0 : (a.choice.isSome || a.field.boxed) = true
  · simp only [h0, if_true]; exact hd
  simp only [h0, Bool.false_eq_true, if_false]
  unfold Arm.isValue at h
  simp only [h0, Bool.false_or] at h
  cases hg : a.field.frequency.generated with
  | singular => exact hd
  | arrayLike =>
    rw [hg] at h
    simp only [Bool.not_eq_true'] at h
    simp only [h, Bool.false_eq_true, if_false]
    exact hd
  | map => rw [hg] at h; simp at h

/-- Inserting an unknown field anywhere keeps the meaning. -/
theorem Grown.same {C : Ctx} {idx : MessageIndex} {b b' : Bytes} (h : Grown C idx b b') :
    ∃ v, Denotes C idx b v ∧ Denotes C idx b' v := by
  induction h with
  | here hm ha hr hc =>
    obtain ⟨us, ha⟩ := ha
    obtain ⟨vs, hc⟩ := hc
    refine ⟨_, denotes_records hm (ha.append hc), ?_⟩
    have := denotes_records hm ((ha.append (by
      have := Parses.cons (hr.record (Denotes C)) Parses.nil
      rwa [List.append_nil] at this)).append hc)
    rwa [List.append_assoc us, List.singleton_append, slotsAfter_unknown] at this
  | @nested idx sub m a g p p' body body' c arm hm ha hc harm hv ht hg htag hp hp' _ ih =>
    obtain ⟨us, ha⟩ := ha
    obtain ⟨vs, hc⟩ := hc
    obtain ⟨w, h1, h2⟩ := ih
    have key : ∀ p body, Delimited p body → Denotes C sub body w →
        Parses (Record C (Denotes C) m) (g ++ p) [Option.some (arm, w)] := by
      intro p body hp hd
      have : Record C (Denotes C) m (g ++ p) (Option.some (arm, w)) :=
        ⟨_, p, hg, rfl, Or.inl ⟨_, harm, w, htag, Arm.isValue.dec hv (by rw [ht]; exact ⟨body, hp, hd⟩), rfl⟩⟩
      have := Parses.cons this Parses.nil
      rwa [List.append_nil] at this
    exact ⟨_, denotes_records hm ((ha.append (key _ _ hp h1)).append hc),
      denotes_records hm ((ha.append (key _ _ hp' h2)).append hc)⟩
  | @mapValue idx sub m a g p p' x q q' y body body' c arm k t us' vs' hm ha hc harm hch hbx hgen ht hg htag hx h2t hy
      hp hp' hq hq' _ ih =>
    obtain ⟨us, ha⟩ := ha
    obtain ⟨vs, hc⟩ := hc
    obtain ⟨w, h1, h2⟩ := ih
    have key : ∀ p q body, Delimited p (x ++ (t :: q) ++ y) → Delimited q body → Denotes C sub body w →
        Parses (Record C (Denotes C) m) (g ++ p) [Option.some (arm, .map [(lastPart false (typDefault C k)
          (us' ++ [(true, w)] ++ vs'), lastPart true (typDefault C (.message sub)) (us' ++ [(true, w)] ++ vs'))])] := by
      intro p q body hp hq hd
      have hpart : Parses (DecPart C (Denotes C) k (.message sub)) (t :: q) [(true, w)] := by
        have : DecPart C (Denotes C) k (.message sub) (t :: q) (true, w) :=
          ⟨t, q, rfl, Or.inr ⟨h2t, rfl, ⟨body, hq, hd⟩⟩⟩
        have := Parses.cons this Parses.nil
        rwa [List.append_nil] at this
      have : Record C (Denotes C) m (g ++ p) (Option.some (arm, .map [(lastPart false (typDefault C k)
          (us' ++ [(true, w)] ++ vs'), lastPart true (typDefault C (.message sub)) (us' ++ [(true, w)] ++ vs'))])) := by
        refine ⟨g, p, hg, rfl, Or.inl ⟨arm, harm, _, htag, ?_, rfl⟩⟩
        unfold DecArm
        simp only [hch, hbx, hgen, Option.isSome_none, Bool.or_self, Bool.false_eq_true, if_false]
        exact ⟨k, .message sub, _, _, ht, hp, (hx.append hpart).append hy, rfl⟩
      have := Parses.cons this Parses.nil
      rwa [List.append_nil] at this
    exact ⟨_, denotes_records hm ((ha.append (key _ _ _ hp hq h1)).append hc),
      denotes_records hm ((ha.append (key _ _ _ hp' hq' h2)).append hc)⟩

/-- **C34**, any depth, any profile: inserting a well-formed unknown field between the fields of an encoded
message, or of a message nested in it (with the lengths around it adjusted), leaves the decoded value. -/
theorem C34_unknown_field_any_depth (C : Ctx) (hS : SchemaOk C) (idx : MessageIndex) (b b' : Bytes)
    (h : Grown C idx b b') (hl : b.length < 2 ^ C.T.usizeBits) (hl' : b'.length < 2 ^ C.T.usizeBits) :
    ∃ v, decode C idx b = .ok v ∧ decode C idx b' = .ok v := by
  obtain ⟨v, h1, h2⟩ := h.same
  exact ⟨v, C63_decode_complete C hS idx b v hl h1, C63_decode_complete C hS idx b' v hl' h2⟩

/-! ## C35: order -/

/-- **C35**, general form, any profile: two sequences of records with, for every struct member, the same
records of that member in the same order (unknown records count for nothing) decode to the same value. -/
theorem C35_field_order (C : Ctx) (hS : SchemaOk C) (idx : MessageIndex) (m : Message)
    (hm : C.D.getMessage idx = Option.some m) (l l' : List (Bytes × Option Item))
    (hl : ∀ x ∈ l, Record C (Denotes C) m x.1 x.2) (hl' : ∀ x ∈ l', Record C (Denotes C) m x.1 x.2)
    (hsame : ∀ j, (l.filterMap (·.2)).filter (·.1.slot == j) = (l'.filterMap (·.2)).filter (·.1.slot == j))
    (hn : (l.flatMap (·.1)).length < 2 ^ C.T.usizeBits) (hn' : (l'.flatMap (·.1)).length < 2 ^ C.T.usizeBits) :
    ∃ v, decode C idx (l.flatMap (·.1)) = .ok v ∧ decode C idx (l'.flatMap (·.1)) = .ok v := by
  refine ⟨_, C63_decode_complete C hS idx _ _ hn (denotes_records hm (Parses.of_list hl)),
    C63_decode_complete C hS idx _ _ hn' ?_⟩
  have e : slotsAfter (C.dflt idx).slots (l.map (·.2)) = slotsAfter (C.dflt idx).slots (l'.map (·.2)) := by
    unfold slotsAfter
    congr 1
    funext j v
    simp only [List.filterMap_map, Function.id_comp]
    rw [hsame j]
  rw [e]
  exact denotes_records hm (Parses.of_list hl')

/-- **C35**, one swap: two neighbouring records of different struct members may be exchanged. (The members
of a oneof are one struct member; their order matters, see C43.) -/
theorem C35_swap (C : Ctx) (hS : SchemaOk C) (idx : MessageIndex) (m : Message)
    (hm : C.D.getMessage idx = Option.some m) (a r1 r2 c : Bytes) (i1 i2 : Item) (ha : Records C m a)
    (hc : Records C m c) (h1 : Record C (Denotes C) m r1 (Option.some i1))
    (h2 : Record C (Denotes C) m r2 (Option.some i2)) (hd : i1.1.slot ≠ i2.1.slot)
    (hn : (a ++ (r1 ++ (r2 ++ c))).length < 2 ^ C.T.usizeBits) :
    ∃ v, decode C idx (a ++ (r1 ++ (r2 ++ c))) = .ok v ∧ decode C idx (a ++ (r2 ++ (r1 ++ c))) = .ok v := by
  obtain ⟨us, ha⟩ := ha
  obtain ⟨vs, hc⟩ := hc
  refine ⟨_, C63_decode_complete C hS idx _ _ hn
      (denotes_records hm (ha.append (Parses.cons h1 (Parses.cons h2 hc)))),
    C63_decode_complete C hS idx _ _ (by simp only [List.length_append] at hn ⊢; omega) ?_⟩
  have := denotes_records hm (ha.append (Parses.cons h2 (Parses.cons h1 hc)))
  have e : slotsAfter (C.dflt idx).slots (us ++ Option.some i1 :: Option.some i2 :: vs) =
      slotsAfter (C.dflt idx).slots (us ++ Option.some i2 :: Option.some i1 :: vs) := by
    unfold slotsAfter
    congr 1
    funext j v
    congr 1
    simp only [List.filterMap_append, List.filterMap_cons, id_eq, List.filter_append, List.filter_cons]
    by_cases e1 : i1.1.slot = j
    · have e2 : i2.1.slot ≠ j := by omega
      simp [e1, e2]
    · simp [e1]
  rw [e]
  exact this

/-! ## C36: repeated occurrences -/

theorem slotsAfter_get {d : List RVal} {us : List (Option Item)} {j : Nat} {v : RVal} (h : d[j]? = Option.some v) :
    (slotsAfter d us)[j]? = Option.some (memberAfter v ((us.filterMap id).filter (·.1.slot == j))) := by
  unfold slotsAfter
  rw [List.getElem?_mapIdx, h]; rfl

/-- The generated default of a struct member. -/
theorem dflt_get {C : Ctx} (hD : IsDefault C) {idx : MessageIndex} {m : Message}
    (hm : C.D.getMessage idx = Option.some m) {j : Nat} {mem : Member} (hj : (members C.cfg m)[j]? = Option.some mem) :
    (C.dflt idx).slots[j]? = Option.some (slotDefault C (m.mustGenerateImplDefault C.D C.cfg) mem) := by
  rw [hD idx m hm]
  simp [RVal.slots, hj]

/-- A message with a struct member is not a unit struct. -/
theorem isUnit_of_member {cfg : Config} {m : Message} {j : Nat} {mem : Member}
    (hj : (members cfg m)[j]? = Option.some mem) : m.isUnit = false := by
  cases m with
  | mk n fs os a b c d e f g h =>
    simp only [Message.isUnit]
    cases fs with
    | cons => simp
    | nil =>
      cases os with
      | cons => simp
      | nil => simp [members] at hj

/-- A record of struct field `j` is read by its arm. -/
theorem item_arm {C : Ctx} {sub : MessageIndex → Bytes → RVal → Prop} {m : Message} {b : Bytes}
    {us : List (Option Item)} (h : Parses (Record C sub m) b us) {j : Nat} {f : Field}
    (hj : (members C.cfg m)[j]? = Option.some (.field f)) {it : Item}
    (hit : it ∈ (us.filterMap id).filter (·.1.slot == j)) : it.1 = ⟨j, f, Option.none⟩ := by
  simp only [List.mem_filter, List.mem_filterMap, id_eq, beq_iff_eq] at hit
  obtain ⟨⟨_, hit, rfl⟩, hs⟩ := hit
  obtain ⟨mem, hmem, ha⟩ := mem_arms.mp (h.arms it hit)
  rw [hs, hj] at hmem
  cases hmem
  simpa [memberArms, hs] using ha

/-- What a sequence of records is decoded as. -/
theorem decode_records {C : Ctx} (hS : SchemaOk C) {idx : MessageIndex} {m : Message}
    (hm : C.D.getMessage idx = Option.some m) (hu : m.isUnit = false) {b : Bytes} {us : List (Option Item)}
    (h : Parses (Record C (Denotes C) m) b us) (hl : b.length < 2 ^ C.T.usizeBits) :
    decode C idx b = .ok (.struct (slotsAfter (C.dflt idx).slots us)) := by
  have := denotes_records hm h
  rw [hu] at this
  exact C63_decode_complete C hS idx b _ hl this

/-- **C36**, singular fields, any profile: if a singular field occurs, its last occurrence decides. `a`, `c` are
any fields; `c` has none of the field in question. -/
theorem C36_last_wins (C : Ctx) (hS : SchemaOk C) (hD : IsDefault C) (idx : MessageIndex) (m : Message)
    (hm : C.D.getMessage idx = Option.some m) (j : Nat) (f : Field)
    (hj : (members C.cfg m)[j]? = Option.some (.field f)) (hf : f.frequency.generated = .singular)
    (a r c : Bytes) (x : RVal) (us : List (Option Item)) (ha : Records C m a)
    (hr : Record C (Denotes C) m r (Option.some (⟨j, f, Option.none⟩, x)))
    (hc : Parses (Record C (Denotes C) m) c us) (hno : ∀ it, Option.some it ∈ us → it.1.slot ≠ j)
    (hl : (a ++ (r ++ c)).length < 2 ^ C.T.usizeBits) :
    ∃ slots, decode C idx (a ++ (r ++ c)) = .ok (.struct slots) ∧
      slots[j]? = Option.some (if f.frequency.isOptional then .some x else x) := by
  obtain ⟨us', ha⟩ := ha
  refine ⟨_, decode_records hS hm (isUnit_of_member hj) (ha.append (Parses.cons hr hc)) hl, ?_⟩
  rw [slotsAfter_get (dflt_get hD hm hj)]
  have e : ((us' ++ Option.some (⟨j, f, Option.none⟩, x) :: us).filterMap id).filter (fun i => i.1.slot == j) =
      (us'.filterMap id).filter (fun i => i.1.slot == j) ++ [(⟨j, f, Option.none⟩, x)] := by
    have : (us.filterMap id).filter (fun i => i.1.slot == j) = [] := by
      simp only [List.filter_eq_nil_iff, List.mem_filterMap, id_eq, beq_iff_eq]
      rintro it ⟨_, hit, rfl⟩
      exact hno it hit
    simp [List.filterMap_append, List.filterMap_cons, this]
  rw [e]
  have hb : f.boxed = true → f.frequency.isOptional = true := by
    have := (hS idx m hm).members (.field f) (List.mem_of_getElem? hj)
    exact this.boxed
  simp only [memberAfter, List.getLast?_append, List.getLast?_singleton, Option.some_or, hf]
  by_cases hbx : f.boxed = true
  · simp [hbx, hb hbx]
  · simp [hbx]

/-- **C36**, repeated fields that are not packed, any profile: the decoded list is the values of all occurrences,
in order, whatever is in between. -/
theorem C36_appends (C : Ctx) (hS : SchemaOk C) (hD : IsDefault C) (idx : MessageIndex) (m : Message)
    (hm : C.D.getMessage idx = Option.some m) (j : Nat) (f : Field)
    (hj : (members C.cfg m)[j]? = Option.some (.field f)) (hf : f.frequency.generated = .arrayLike)
    (hp : f.isPacked = false) (b : Bytes) (us : List (Option Item)) (hb : Parses (Record C (Denotes C) m) b us)
    (hl : b.length < 2 ^ C.T.usizeBits) :
    ∃ slots, decode C idx b = .ok (.struct slots) ∧
      slots[j]? = Option.some (.vec (((us.filterMap id).filter (·.1.slot == j)).map (·.2))) := by
  refine ⟨_, decode_records hS hm (isUnit_of_member hj) hb hl, ?_⟩
  rw [slotsAfter_get (dflt_get hD hm hj)]
  have hb' : f.boxed = false := by
    have := ((hS idx m hm).members (.field f) (List.mem_of_getElem? hj)).boxed
    cases h : f.boxed
    · rfl
    · have h2 := this h
      cases hq : f.frequency <;> rw [hq] at h2 hf <;> simp_all [Frequency.isOptional, Frequency.generated, Frequency.isMap, Frequency.isRepeated]
  have hdef : slotDefault C (m.mustGenerateImplDefault C.D C.cfg) (.field f) = .vec [] := by
    simp [slotDefault, hb', hf, isPackedFixed, hp]
  rw [hdef]
  have harm := fun it hit => item_arm hb hj (it := it) hit
  generalize ((us.filterMap id).filter (·.1.slot == j)) = its at harm ⊢
  unfold memberAfter
  cases hlast : its.getLast? with
  | none =>
    rw [List.getLast?_eq_none_iff] at hlast
    simp [hlast]
  | some it =>
    obtain ⟨a, x⟩ := it
    have := harm _ (List.mem_of_getLast? hlast)
    simp only at this
    subst this
    simp [hb', hf, hp]

/-- **C36**, maps, any profile: the decoded map is what inserting the entries in wire order gives; so the last
value for a key wins (`insertKV_get`). -/
theorem C36_map_inserts (C : Ctx) (hS : SchemaOk C) (hD : IsDefault C) (idx : MessageIndex) (m : Message)
    (hm : C.D.getMessage idx = Option.some m) (j : Nat) (f : Field)
    (hj : (members C.cfg m)[j]? = Option.some (.field f)) (hf : f.frequency.generated = .map)
    (b : Bytes) (us : List (Option Item)) (hb : Parses (Record C (Denotes C) m) b us)
    (hl : b.length < 2 ^ C.T.usizeBits) :
    ∃ slots, decode C idx b = .ok (.struct slots) ∧
      slots[j]? = Option.some (.map (((us.filterMap id).filter (·.1.slot == j)).foldl (fun l it =>
        match it.2 with
        | .map [(k, v)] => insertKV k v l
        | _ => l) [])) := by
  refine ⟨_, decode_records hS hm (isUnit_of_member hj) hb hl, ?_⟩
  rw [slotsAfter_get (dflt_get hD hm hj)]
  have hb' : f.boxed = false := by
    have := ((hS idx m hm).members (.field f) (List.mem_of_getElem? hj)).boxed
    cases h : f.boxed
    · rfl
    · have h2 := this h
      cases hq : f.frequency <;> rw [hq] at h2 hf <;> simp_all [Frequency.isOptional, Frequency.generated, Frequency.isMap, Frequency.isRepeated]
  have hdef : slotDefault C (m.mustGenerateImplDefault C.D C.cfg) (.field f) = .map [] := by
    simp [slotDefault, hb', hf]
  rw [hdef]
  have harm := fun it hit => item_arm hb hj (it := it) hit
  generalize ((us.filterMap id).filter (·.1.slot == j)) = its at harm ⊢
  unfold memberAfter
  cases hlast : its.getLast? with
  | none =>
    rw [List.getLast?_eq_none_iff] at hlast
    simp [hlast]
  | some it =>
    obtain ⟨a, x⟩ := it
    have := harm _ (List.mem_of_getLast? hlast)
    simp only at this
    subst this
    simp only [hb', hf, Bool.false_eq_true, if_false]
    rfl

/-- After an insertion the key has the new value. -/
theorem insertKV_find (k v : RVal) (hk : keyEq k k = true) (l : List (RVal × RVal)) :
    ((insertKV k v l).find? (fun e => keyEq e.1 k)).map (·.2) = Option.some v := by
  induction l with
  | nil => simp [insertKV, hk]
  | cons e l ih =>
    obtain ⟨k', v'⟩ := e
    by_cases h : keyEq k' k = true
    · simp [insertKV, h]
    · simp only [insertKV, h, Bool.false_eq_true, if_false]
      rw [List.find?_cons_of_neg (by simpa using h)]
      exact ih

/-- A field that does not occur keeps its default. -/
theorem C36_absent (C : Ctx) (hS : SchemaOk C) (hD : IsDefault C) (idx : MessageIndex) (m : Message)
    (hm : C.D.getMessage idx = Option.some m) (j : Nat) (mem : Member)
    (hj : (members C.cfg m)[j]? = Option.some mem) (b : Bytes) (us : List (Option Item))
    (hb : Parses (Record C (Denotes C) m) b us) (hno : ∀ it, Option.some it ∈ us → it.1.slot ≠ j)
    (hl : b.length < 2 ^ C.T.usizeBits) :
    ∃ slots, decode C idx b = .ok (.struct slots) ∧
      slots[j]? = Option.some (slotDefault C (m.mustGenerateImplDefault C.D C.cfg) mem) := by
  refine ⟨_, decode_records hS hm (isUnit_of_member hj) hb hl, ?_⟩
  rw [slotsAfter_get (dflt_get hD hm hj)]
  have : (us.filterMap id).filter (fun i => i.1.slot == j) = [] := by
    simp only [List.filter_eq_nil_iff, List.mem_filterMap, id_eq, beq_iff_eq]
    rintro it ⟨_, hit, rfl⟩
    exact hno it hit
  rw [this]; rfl

/-! ## Instances -/

namespace Example

theorem iv1 (b : Byte) (h : lastByte b = true) : IsVarint [b] := ⟨[], b, rfl, by simp, by simp, h⟩

theorem parses1 {U : Type} {R : Bytes → U → Prop} {p : Bytes} {u : U} (h : R p u) : Parses R p [u] := by
  have := Parses.cons h Parses.nil
  rwa [List.append_nil] at this

/-- `id: 5` (non-canonically encoded) -/
theorem rec_id (T : Target) (sub : MessageIndex → Bytes → RVal → Prop) :
    Record (ctx T) sub node ([0x08#8] ++ [0x85#8, 0x00#8]) (Option.some (⟨0, fId, Option.none⟩, .w32 5)) :=
  ⟨_, _, iv1 _ rfl, rfl, Or.inl ⟨⟨0, fId, Option.none⟩, by simp [arms, node_members], _, rfl,
    ⟨⟨[0x85#8], 0x00#8, rfl, by simp, by simp [lastByte], rfl⟩, rfl⟩, rfl⟩⟩

/-- `tags: "b"` -/
theorem rec_tag (T : Target) (sub : MessageIndex → Bytes → RVal → Prop) :
    Record (ctx T) sub node ([0x2a#8] ++ [0x01#8, 0x62#8]) (Option.some (⟨4, fTags, Option.none⟩, .bytes [0x62#8])) :=
  ⟨_, _, iv1 _ rfl, rfl, Or.inl ⟨⟨4, fTags, Option.none⟩, by simp [arms, node_members], _, rfl,
    ⟨[0x62#8], ⟨[0x01#8], iv1 _ rfl, rfl, rfl⟩, utf8_b, rfl⟩, rfl⟩⟩

/-- field 13, length-delimited, two bytes: unknown to `Node`. -/
theorem unknown13 (T : Target) : UnknownRecord (ctx T) node ([0x6a#8] ++ [0x02#8, 0x01#8, 0x02#8]) :=
  ⟨[0x6a#8], _, iv1 _ rfl, (by decide : ∀ a ∈ arms {} node, _), Payload.delimited (g := [0x02#8]) (body := [0x01#8, 0x02#8]) (iv1 _ rfl) rfl, rfl⟩

/-- the deprecated field 10 is unknown too -/
theorem unknown10 (T : Target) : UnknownRecord (ctx T) node ([0x50#8] ++ [0x07#8]) :=
  ⟨[0x50#8], _, iv1 _ rfl, (by decide : ∀ a ∈ arms {} node, _), Payload.varint (iv1 _ rfl), rfl⟩

/-- C34 at depth one: an unknown field inserted into `child`. -/
theorem grown (T : Target) : Grown (ctx T) [0]
    ([0x08#8, 0x85#8, 0x00#8] ++ ([0x3a#8] ++ [0x03#8, 0x08#8, 0x85#8, 0x00#8]) ++ [])
    ([0x08#8, 0x85#8, 0x00#8] ++ ([0x3a#8] ++ [0x07#8, 0x08#8, 0x85#8, 0x00#8, 0x6a#8, 0x02#8, 0x01#8, 0x02#8]) ++ []) := by
  refine Grown.nested (m := node) (sub := [0]) (arm := ⟨6, fChild, Option.none⟩)
    (body := [0x08#8, 0x85#8, 0x00#8]) (body' := [0x08#8, 0x85#8, 0x00#8, 0x6a#8, 0x02#8, 0x01#8, 0x02#8]) (get_node0 T)
    ⟨_, parses1 (rec_id T _)⟩ ⟨_, Parses.nil⟩ (by simp [arms, node_members]) rfl rfl (iv1 _ rfl) rfl
    ⟨[0x03#8], iv1 _ rfl, rfl, rfl⟩ ⟨[0x07#8], iv1 _ rfl, rfl, rfl⟩ ?_
  exact Grown.here (a := [0x08#8, 0x85#8, 0x00#8]) (r := [0x6a#8, 0x02#8, 0x01#8, 0x02#8]) (c := []) (get_node0 T)
    ⟨_, parses1 (rec_id T _)⟩ (unknown13 T) ⟨_, Parses.nil⟩

/-- C35, C36: the hypotheses of the swap, last-wins and append theorems hold of these records. -/
example (T : Target) (h : T.usizeBits = 64) : ∃ v,
    decode (ctx T) [0] ([] ++ ([0x08#8, 0x85#8, 0x00#8] ++ ([0x2a#8, 0x01#8, 0x62#8] ++ []))) = .ok v ∧
    decode (ctx T) [0] ([] ++ ([0x2a#8, 0x01#8, 0x62#8] ++ ([0x08#8, 0x85#8, 0x00#8] ++ []))) = .ok v :=
  C35_swap (ctx T) (schemaOk T) [0] node (get_node0 T) [] _ _ [] _ _ ⟨_, Parses.nil⟩ ⟨_, Parses.nil⟩ (rec_id T _)
    (rec_tag T _) (by decide) (by simp [ctx, h])

end Example

end QP.Gen
