import Verif.Spec.Words
import Verif.Model.Pbrs.Names
/-!
# C46 (tags), C47 (keywords), C61 (`split_package`)
-/

set_option linter.unusedVariables false

namespace QP.Pbrs

/-! ## C46 -/

theorem tag_toNat (n : BitVec 32) (h : n.toNat < 2 ^ 29) (typ : FieldType) (packed : Bool) :
    (tag n typ packed).toNat = 8 * n.toNat + typ.wireTypeNum packed ∧ typ.wireTypeNum packed < 8 := by
  have hw : typ.wireTypeNum packed < 8 := by
    unfold FieldType.wireTypeNum
    split
    · omega
    · cases typ <;> simp [FieldType.wireTypeNumNonPacked]
  refine ⟨?_, hw⟩
  have : n <<< 3 ||| BitVec.ofNat 32 (typ.wireTypeNum packed) = n <<< 3 + BitVec.ofNat 32 (typ.wireTypeNum packed) := by
    refine (BitVec.add_eq_or_of_and_eq_zero _ _ ?_).symm
    generalize typ.wireTypeNum packed = w at hw
    apply BitVec.eq_of_getLsbD_eq
    intro i hi
    simp only [BitVec.getLsbD_and, BitVec.getLsbD_shiftLeft, BitVec.getLsbD_ofNat, BitVec.getLsbD_zero]
    by_cases h3 : i < 3
    · simp [h3]
    · have : Nat.testBit w i = false := Nat.testBit_lt_two_pow (Nat.lt_of_lt_of_le hw (by
        calc 8 = 2 ^ 3 := rfl
          _ ≤ 2 ^ i := Nat.pow_le_pow_right (by omega) (by omega)))
      simp [this]
  unfold tag
  rw [this, BitVec.toNat_add, BitVec.toNat_shiftLeft, BitVec.toNat_ofNat, Nat.shiftLeft_eq]
  omega

/-- C46 for the field numbers protobuf allows (`0 ≤ n < 2^29`): the tag is `8 * number + wire type`, so both can be
recovered from it. -/
theorem C46_tag_partial (f : Field) (h0 : 0 ≤ f.number) (h1 : f.number < 2 ^ 29) :
    (f.tag.toNat : Int) = 8 * f.number + (f.typ.wireTypeNum f.isPacked : Int) ∧
      ((f.tag >>> 3).toNat : Int) = f.number ∧ (f.tag &&& 7).toNat = f.typ.wireTypeNum f.isPacked := by
  have hn : (BitVec.ofInt 32 f.number).toNat = f.number.toNat := by
    rw [BitVec.toNat_ofInt]
    omega
  obtain ⟨h2, h3⟩ := tag_toNat (BitVec.ofInt 32 f.number) (by rw [hn]; omega) f.typ f.isPacked
  rw [hn] at h2
  have h2' : f.tag.toNat = 8 * f.number.toNat + f.typ.wireTypeNum f.isPacked := h2
  refine ⟨by omega, ?_, ?_⟩
  · rw [BitVec.toNat_ushiftRight, Nat.shiftRight_eq_div_pow]
    omega
  · rw [BitVec.toNat_and]
    have : (7 : BitVec 32).toNat = 2 ^ 3 - 1 := rfl
    rw [this, Nat.and_two_pow_sub_one_eq_mod]
    omega

/-- C46: two fields have the same tag exactly when they have the same number and the same wire type. -/
theorem C46_injective_partial (f g : Field) (hf : 0 ≤ f.number ∧ f.number < 2 ^ 29) (hg : 0 ≤ g.number ∧ g.number < 2 ^ 29) :
    f.tag = g.tag ↔ f.number = g.number ∧ f.typ.wireTypeNum f.isPacked = g.typ.wireTypeNum g.isPacked := by
  obtain ⟨h1, h2, h3⟩ := C46_tag_partial f hf.1 hf.2
  obtain ⟨k1, k2, k3⟩ := C46_tag_partial g hg.1 hg.2
  constructor
  · intro h
    rw [h] at h2 h3
    exact ⟨by omega, by omega⟩
  · rintro ⟨a, b⟩
    apply BitVec.eq_of_toNat_eq
    omega

/-- C46: a field with number 536870911, the largest one. -/
example : ∃ f : Field, 0 ≤ f.number ∧ f.number < 2 ^ 29 ∧ f.tag = 0xFFFFFFFA#32 :=
  ⟨{ name := [], frequency := .p2optional, typ := .string_, number := 536870911 }, by decide, by decide, by decide⟩

/-- C46 is false for the other numbers the parser accepts: fields 1 and 536870913 = 2^29 + 1 get the same tag. -/
theorem C46_refuted : ∃ f g : Field, f.number = 1 ∧ g.number = 536870913 ∧ f.tag = g.tag :=
  ⟨{ name := [], frequency := .p2optional, typ := .int32, number := 1 },
    { name := [], frequency := .p2optional, typ := .int32, number := 536870913 }, rfl, rfl, by decide⟩

/-! ## C47 -/

theorem splitDot_ne_nil (s : Str) : splitDot s ≠ [] := by
  cases s with
  | nil => simp [splitDot]
  | cons c cs =>
    simp only [splitDot]
    split
    · simp
    · split <;> simp

theorem joinDot_cons (s : Str) {ss : List Str} (h : ss ≠ []) : joinDot (s :: ss) = s ++ '.' :: joinDot ss := by
  cases ss with
  | nil => exact (h rfl).elim
  | cons t ts => rfl

theorem joinDot_splitDot (s : Str) : joinDot (splitDot s) = s := by
  induction s with
  | nil => rfl
  | cons c cs ih =>
    simp only [splitDot]
    split
    · rename_i h
      rw [joinDot_cons _ (splitDot_ne_nil cs), ih, h]
      rfl
    · split
      · rename_i h; exact (splitDot_ne_nil cs h).elim
      · rename_i s ss h
        rw [h] at ih
        rw [← ih]
        cases ss with
        | nil => rfl
        | cons t ts => rfl

theorem splitDot_no_dot (s : Str) : ∀ t ∈ splitDot s, '.' ∉ t := by
  induction s with
  | nil => simp [splitDot]
  | cons c cs ih =>
    simp only [splitDot]
    split
    · intro t ht
      rcases List.mem_cons.mp ht with rfl | ht
      · simp
      · exact ih t ht
    · rename_i hc
      split
      · intro t ht
        simp only [List.mem_singleton] at ht
        subst ht
        simp only [List.mem_singleton]
        exact fun h => hc h.symm
      · rename_i u us h
        rw [h] at ih
        intro t ht
        rcases List.mem_cons.mp ht with rfl | ht
        · simp only [List.mem_cons, not_or]
          exact ⟨fun h => hc h.symm, ih u (by simp)⟩
        · exact ih t (by simp [ht])

theorem splitDot_of_no_dot {s : Str} (h : '.' ∉ s) : splitDot s = [s] := by
  induction s with
  | nil => rfl
  | cons c cs ih =>
    simp only [List.mem_cons, not_or] at h
    have hc : ¬ c = '.' := fun e => h.1 e.symm
    simp only [splitDot, hc, if_false, ih h.2]

theorem splitDot_append {s t : Str} (h : '.' ∉ s) : splitDot (s ++ '.' :: t) = s :: splitDot t := by
  induction s with
  | nil => simp [splitDot]
  | cons c cs ih =>
    simp only [List.mem_cons, not_or] at h
    have hc : ¬ c = '.' := fun e => h.1 e.symm
    simp only [List.cons_append, splitDot, hc, if_false, ih h.2]

theorem splitDot_joinDot {ss : List Str} (hne : ss ≠ []) (h : ∀ s ∈ ss, '.' ∉ s) : splitDot (joinDot ss) = ss := by
  induction ss with
  | nil => exact (hne rfl).elim
  | cons s ss ih =>
    cases ss with
    | nil => exact splitDot_of_no_dot (h s (by simp))
    | cons t ts =>
      rw [joinDot_cons s (by simp), splitDot_append (h s (by simp)), ih (by simp) (fun u hu => h u (by simp [hu]))]

theorem sanitizeKeyword_eq (s : Str) : sanitizeKeyword s = joinDot ((splitDot s).map sanitizeSegment) := by
  unfold sanitizeKeyword
  split
  · rename_i h
    obtain ⟨h1, h2⟩ := Bool.and_eq_true_iff.mp h
    have hd : '.' ∉ s := by simpa using h1
    rw [splitDot_of_no_dot hd]
    simp only [List.map_cons, List.map_nil, joinDot, sanitizeSegment, h2, if_true]
  · rfl

theorem keyword_no_dot : ∀ k ∈ rustKeywords, '.' ∉ k := by decide

theorem keyword_pb : ∀ k ∈ rustKeywords, k ++ "_pb".toList ∉ rustKeywords := by decide

theorem sanitizeSegment_not_keyword (s : Str) : sanitizeSegment s ∉ rustKeywords := by
  unfold sanitizeSegment
  split
  · rename_i h
    exact keyword_pb s (by simpa using h)
  · rename_i h
    simpa using h

theorem sanitizeSegment_no_dot {s : Str} (h : '.' ∉ s) : '.' ∉ sanitizeSegment s := by
  unfold sanitizeSegment
  split
  · simp only [List.mem_append, not_or]
    exact ⟨h, by decide⟩
  · exact h

theorem split_sanitize (s : Str) : splitDot (sanitizeKeyword s) = (splitDot s).map sanitizeSegment := by
  rw [sanitizeKeyword_eq]
  refine splitDot_joinDot (by simpa using splitDot_ne_nil s) ?_
  intro t ht
  obtain ⟨u, hu, rfl⟩ := List.mem_map.mp ht
  exact sanitizeSegment_no_dot (splitDot_no_dot s u hu)

/-- C47: no segment of a sanitized path is in pb-rs's list of reserved names. -/
theorem C47_not_listed_partial (s : Str) : ∀ t ∈ splitDot (sanitizeKeyword s), t ∉ rustKeywords := by
  rw [split_sanitize]
  intro t ht
  obtain ⟨u, _, rfl⟩ := List.mem_map.mp ht
  exact sanitizeSegment_not_keyword u

/-- C47: no segment of a sanitized path is a word of Rust (but see `C47_refuted_keywords`) or one of the names that the generated code uses (but
see `C47_refuted_names`). -/
theorem C47_words_partial (s : Str) : ∀ t ∈ splitDot (sanitizeKeyword s), t ∉ strictKeywords ∧ t ∉ usedNames ∧ (t ∈ reservedKeywords → t = c! "macro") := by
  intro t ht
  have h := C47_not_listed_partial s t ht
  have h1 : ∀ k ∈ strictKeywords, k ∈ rustKeywords := by decide +kernel
  have h2 : ∀ k ∈ usedNames, k ∈ rustKeywords := by decide +kernel
  have h3 : ∀ k ∈ reservedKeywords, k = c! "macro" ∨ k ∈ rustKeywords := by decide +kernel
  exact ⟨fun hk => h (h1 t hk), fun hk => h (h2 t hk), fun hk => (h3 t hk).resolve_right h⟩

/-- C47: sanitizing twice is sanitizing once. -/
theorem C47_idempotent_partial (s : Str) : sanitizeKeyword (sanitizeKeyword s) = sanitizeKeyword s := by
  conv => lhs; rw [sanitizeKeyword_eq]
  have : (splitDot (sanitizeKeyword s)).map sanitizeSegment = splitDot (sanitizeKeyword s) := by
    conv => rhs; rw [← List.map_id (splitDot (sanitizeKeyword s))]
    refine List.map_congr_left fun t ht => ?_
    have := C47_not_listed_partial s t ht
    simp [sanitizeSegment, this]
  rw [this, joinDot_splitDot]

/-- C47: a name none of whose segments is listed is left alone. -/
theorem C47_unchanged_partial (s : Str) (h : ∀ t ∈ splitDot s, t ∉ rustKeywords) : sanitizeKeyword s = s := by
  rw [sanitizeKeyword_eq]
  have : (splitDot s).map sanitizeSegment = splitDot s := by
    conv => rhs; rw [← List.map_id (splitDot s)]
    refine List.map_congr_left fun t ht => ?_
    have := h t ht
    simp [sanitizeSegment, this]
  rw [this, joinDot_splitDot]

theorem sanitizeSegment_inj {s t : Str} (hs : ∀ k ∈ rustKeywords, s ≠ k ++ "_pb".toList)
    (ht : ∀ k ∈ rustKeywords, t ≠ k ++ "_pb".toList) (h : sanitizeSegment s = sanitizeSegment t) : s = t := by
  unfold sanitizeSegment at h
  split at h
  · rename_i h1
    split at h
    · exact List.append_cancel_right h
    · exact (ht s (by simpa using h1) h.symm).elim
  · split at h
    · rename_i h2
      exact (hs t (by simpa using h2) h).elim
    · exact h

/-- C47: different names stay different, as long as no segment is already a listed name followed by `_pb`. -/
theorem C47_injective_partial (s t : Str) (hs : ∀ u ∈ splitDot s, ∀ k ∈ rustKeywords, u ≠ k ++ "_pb".toList)
    (ht : ∀ u ∈ splitDot t, ∀ k ∈ rustKeywords, u ≠ k ++ "_pb".toList)
    (h : sanitizeKeyword s = sanitizeKeyword t) : s = t := by
  have h' : (splitDot s).map sanitizeSegment = (splitDot t).map sanitizeSegment := by
    rw [← split_sanitize, ← split_sanitize, h]
  have key : ∀ (a b : List Str), (∀ u ∈ a, ∀ k ∈ rustKeywords, u ≠ k ++ "_pb".toList) →
      (∀ u ∈ b, ∀ k ∈ rustKeywords, u ≠ k ++ "_pb".toList) → a.map sanitizeSegment = b.map sanitizeSegment → a = b := by
    intro a
    induction a with
    | nil => intro b _ _ h; cases b with
      | nil => rfl
      | cons => cases h
    | cons x a ih =>
      intro b ha hb h
      cases b with
      | nil => cases h
      | cons y b =>
        simp only [List.map_cons, List.cons.injEq] at h
        rw [sanitizeSegment_inj (ha x (by simp)) (hb y (by simp)) h.1,
          ih b (fun u hu => ha u (by simp [hu])) (fun u hu => hb u (by simp [hu])) h.2]
  rw [← joinDot_splitDot s, ← joinDot_splitDot t, key _ _ hs ht h']

/-- C47: `a.type.type_x` becomes `a.type_pb.type_x`. -/
example : sanitizeKeyword "a.type.type_x".toList = "a.type_pb.type_x".toList := by decide

/-- C47 is false: different names can clash. -/
theorem C47_refuted_clash : sanitizeKeyword "type".toList = sanitizeKeyword "type_pb".toList := by decide

/-- C47 is false: these Rust keywords are not on the list, and are left as they are. -/
theorem C47_refuted_keywords : ∀ k ∈ newKeywords ++ [c! "macro"], sanitizeKeyword k = k ∧ (k ∈ newKeywords ∨ k ∈ reservedKeywords) := by decide +kernel

/-- C47 is false: these names, which the generated code uses, are left as they are. -/
theorem C47_refuted_names : ∀ k ∈ otherNames, sanitizeKeyword k = k := by decide +kernel

/-! ## C61 -/

theorem rsplitDot_none {s : Str} : rsplitDot s = none ↔ '.' ∉ s := by
  induction s with
  | nil => simp [rsplitDot]
  | cons c cs ih =>
    simp only [rsplitDot, List.mem_cons, not_or]
    split
    · rename_i a b h
      simp only [reduceCtorEq, false_iff, not_and]
      intro _ hn
      rw [ih.mpr hn] at h; cases h
    · rename_i h
      have hcs := ih.mp h
      split
      · rename_i hc; simp [hc]
      · rename_i hc; simp only [true_iff]; exact ⟨fun e => hc e.symm, hcs⟩

theorem rsplitDot_some {s a b : Str} (h : rsplitDot s = some (a, b)) : s = a ++ '.' :: b ∧ '.' ∉ b := by
  induction s generalizing a b with
  | nil => cases h
  | cons c cs ih =>
    simp only [rsplitDot] at h
    split at h
    · rename_i x y hx
      simp only [Option.some.injEq, Prod.mk.injEq] at h
      obtain ⟨rfl, rfl⟩ := h
      obtain ⟨h1, h2⟩ := ih hx
      exact ⟨by rw [h1]; rfl, h2⟩
    · rename_i hx
      split at h
      · rename_i hc
        simp only [Option.some.injEq, Prod.mk.injEq] at h
        obtain ⟨rfl, rfl⟩ := h
        exact ⟨by rw [hc]; rfl, rsplitDot_none.mp hx⟩
      · cases h

/-- C61. A package with a dot is split at the last one; a package without is returned whole with an empty prefix. -/
theorem C61_split_package (p : Str) :
    ('.' ∈ p → p = (splitPackage p).1 ++ '.' :: (splitPackage p).2) ∧
      ('.' ∉ p → splitPackage p = ([], p)) ∧ '.' ∉ (splitPackage p).2 := by
  unfold splitPackage
  cases p with
  | nil => simp
  | cons c cs =>
    simp only [List.isEmpty_cons, Bool.false_eq_true, if_false]
    cases h : rsplitDot (c :: cs) with
    | none =>
      have hn := rsplitDot_none.mp h
      exact ⟨fun hc => (hn hc).elim, fun _ => rfl, hn⟩
    | some ab =>
      obtain ⟨a, b⟩ := ab
      obtain ⟨h1, h2⟩ := rsplitDot_some h
      refine ⟨fun _ => h1, fun hn => ?_, h2⟩
      rw [rsplitDot_none.mpr hn] at h; cases h

/-- C61: in terms of segments, the second part is the last one and the first part the others. -/
theorem C61_segments (p : Str) (h : '.' ∈ p) :
    splitDot p = splitDot (splitPackage p).1 ++ [(splitPackage p).2] := by
  have key : ∀ a b : Str, '.' ∉ b → splitDot (a ++ '.' :: b) = splitDot a ++ [b] := by
    intro a b hb
    induction a with
    | nil => simp [splitDot, splitDot_of_no_dot hb]
    | cons c cs ih =>
      simp only [List.cons_append, splitDot]
      split
      · rw [ih]; rfl
      · rw [ih]
        cases hs : splitDot cs with
        | nil => exact (splitDot_ne_nil cs hs).elim
        | cons s ss => rfl
  obtain ⟨h1, _, h3⟩ := C61_split_package p
  conv => lhs; rw [h1 h]
  exact key _ _ h3

example : splitPackage "a.b.c".toList = ("a.b".toList, "c".toList) := by decide

end QP.Pbrs
