import Verif.Proofs.GenRead
/-! The generated `from_reader` loop on a sequence of records. -/

set_option linter.unusedVariables false

namespace QP.Gen
open QP.Pbrs Spec BytesReader

/-! ### arms -/

theorem nodup_map_inj {α β : Type} {f : α → β} {l : List α} (h : (l.map f).Nodup) {a b : α}
    (ha : a ∈ l) (hb : b ∈ l) (hab : f a = f b) : a = b := by
  induction l with
  | nil => simp at ha
  | cons c l ih =>
    rw [List.map_cons, List.nodup_cons] at h
    rcases List.mem_cons.mp ha with rfl | ha' <;> rcases List.mem_cons.mp hb with rfl | hb'
    · rfl
    · exact (h.1 (List.mem_map.mpr ⟨b, hb', hab.symm⟩)).elim
    · exact (h.1 (List.mem_map.mpr ⟨a, ha', hab⟩)).elim
    · exact ih h.2 ha' hb'

/-- The arms of one member. -/
def memberArms (mem : Member) (j : Nat) : List Arm :=
  match mem with
  | .field f => [⟨j, f, Option.none⟩]
  | .oneof fs => fs.zipIdx.map fun (f, i) => ⟨j, f, Option.some i⟩

theorem mem_arms {cfg : Config} {m : Message} {a : Arm} :
    a ∈ arms cfg m ↔ ∃ mem, (members cfg m)[a.slot]? = Option.some mem ∧ a ∈ memberArms mem a.slot := by
  have hslot : ∀ mem j, a ∈ memberArms mem j → a.slot = j := by
    intro mem j h
    cases mem with
    | field f => simp only [memberArms, List.mem_singleton] at h; rw [h]
    | oneof fs =>
      simp only [memberArms, List.mem_map] at h
      obtain ⟨p, _, rfl⟩ := h; rfl
  unfold arms
  rw [List.mem_flatMap]
  constructor
  · rintro ⟨⟨mem, j⟩, h1, h2⟩
    have h2 : a ∈ memberArms mem j := by
      cases mem <;> exact h2
    have := hslot _ _ h2
    subst this
    exact ⟨mem, by simpa using List.mem_zipIdx_iff_getElem?.mp h1, h2⟩
  · rintro ⟨mem, h1, h2⟩
    refine ⟨(mem, a.slot), List.mem_zipIdx_iff_getElem?.mpr (by simpa using h1), ?_⟩
    cases mem <;> exact h2

theorem arm_number {cfg : Config} {m : Message} (hok : MessageOk cfg m) {a : Arm}
    (ha : a ∈ arms cfg m) : 0 < a.field.number ∧ a.field.number < 2 ^ 29 := by
  obtain ⟨mem, h1, h2⟩ := mem_arms.mp ha
  have hm := hok.members mem (List.mem_of_getElem? h1)
  cases mem with
  | field f =>
    simp only [memberArms, List.mem_singleton] at h2
    rw [h2]; exact FieldOk.number hm
  | oneof fs =>
    simp only [memberArms, List.mem_map] at h2
    obtain ⟨⟨f, i⟩, hf, he⟩ := h2
    rw [← he]
    exact (hm f (List.mem_of_getElem? (List.mem_zipIdx_iff_getElem?.mp hf))).number

theorem arm_tag {cfg : Config} {m : Message} (hok : MessageOk cfg m) {a b : Arm}
    (ha : a ∈ arms cfg m) (hb : b ∈ arms cfg m) (h : a.field.tag = b.field.tag) : a = b := by
  have h1 := fieldTag_eq (arm_number hok ha)
  have h2 := fieldTag_eq (arm_number hok hb)
  have wa := wireTypeNum_lt a.field.typ a.field.isPacked
  have wb := wireTypeNum_lt b.field.typ b.field.isPacked
  have na := arm_number hok ha
  have nb := arm_number hok hb
  refine nodup_map_inj hok.distinct ha hb ?_
  rw [h] at h1
  have h3 : fieldTag a.field = fieldTag b.field := h1.symm.trans h2
  unfold fieldTag Spec.tag at h3
  omega

theorem find_arm {cfg : Config} {m : Message} (hok : MessageOk cfg m) {a : Arm}
    (ha : a ∈ arms cfg m) {t : BitVec 32} (ht : a.field.tag = t) :
    (arms cfg m).find? (fun b => b.field.tag == t) = Option.some a := by
  cases hf : (arms cfg m).find? (fun b => b.field.tag == t) with
  | none =>
    rw [List.find?_eq_none] at hf
    exact absurd (by simp [ht]) (hf a ha)
  | some b =>
    have h1 := List.find?_some hf
    have h2 := List.mem_of_find?_eq_some hf
    simp only [beq_iff_eq] at h1
    rw [arm_tag hok h2 ha (h1.trans ht.symm)]

/-! ### one record -/

section
variable {C : Ctx} {rd : MessageIndex → Bytes → RM RVal}

theorem msgStep_known {as : List Arm} {a : Arm} {fuel : Nat} {g p : Bytes} {t : BitVec 32} {x : RVal}
    (hf : as.find? (fun b => b.field.tag == t) = Option.some a)
    (hg : ReadsAs C.T next_tag g t) (hp : ReadsAs C.T (armRead C rd fuel a) p x) (slots : List RVal) :
    ReadsAs C.T (fun b => msgStep C rd fuel as b slots) (g ++ p) (applyItem slots (a, x)) := by
  unfold msgStep
  refine ReadsAs.bind hg (q := fun t b =>
    (match as.find? (fun a => a.field.tag == t) with
      | Option.some a => do
        let v ← armRead C rd fuel a b
        pure (setSlot a.slot (fun old => armApply a old v) slots)
      | Option.none => do
        read_unknown C.T b t
        pure slots)) ?_
  simp only [hf]
  exact hp.map (fun v => setSlot a.slot (fun old => armApply a old v) slots)

theorem msgStep_unknown {as : List Arm} {fuel : Nat} {g p : Bytes} {t : BitVec 32}
    (hf : as.find? (fun b => b.field.tag == t) = Option.none)
    (hg : ReadsAs C.T next_tag g t) (hp : ReadsAs C.T (fun b => read_unknown C.T b t) p ())
    (slots : List RVal) :
    ReadsAs C.T (fun b => msgStep C rd fuel as b slots) (g ++ p) slots := by
  unfold msgStep
  refine ReadsAs.bind hg (q := fun t b =>
    (match as.find? (fun a => a.field.tag == t) with
      | Option.some a => do
        let v ← armRead C rd fuel a b
        pure (setSlot a.slot (fun old => armApply a old v) slots)
      | Option.none => do
        read_unknown C.T b t
        pure slots)) ?_
  simp only [hf]
  exact hp.map (fun _ => slots)

end

/-- A message that is not a unit, on a sequence of records. -/
theorem fromReader_records {C : Ctx} {idx : MessageIndex} {m : Message} {I : Type}
    (hm : C.D.getMessage idx = Option.some m) (hu : m.isUnit = false) (n : Nat)
    {enc : I → Bytes} {upd : List RVal → I → List RVal} (items : List I)
    (hne : ∀ i ∈ items, enc i ≠ [])
    (hstep : ∀ i ∈ items, ∀ acc,
      ReadsAs C.T (fun b => msgStep C (fromReader C n) (n + 1) (arms C.cfg m) b acc) (enc i) (upd acc i))
    (hn : items.length ≤ n) :
    ReadsAll C.T (fromReader C (n + 1) idx) (items.flatMap enc)
      (.struct (items.foldl upd (C.dflt idx).slots)) := by
  intro pre suf hl
  have h := readsAll_loop (T := C.T)
    (step := fun b acc => msgStep C (fromReader C n) (n + 1) (arms C.cfg m) b acc)
    items hne hstep (C.dflt idx).slots (n + 1) (by omega) pre suf hl
  simp only [fromReader, hm, hu, Bool.false_eq_true, if_false]
  rw [SM.bind_ok h, SM.pure_run]

/-! ### the records of a value -/

theorem memberItems_arm {C : Ctx} {Q : Field → RVal → Prop} {sub : MessageIndex → RVal → Prop}
    {mem : Member} {v : RVal} {j : Nat} {it : Item} (h : it ∈ memberItems C j mem v) :
    it.1 ∈ memberArms mem j ∧ it.1.slot = j := by
  cases mem with
  | field f =>
    simp only [memberItems, List.mem_map] at h
    obtain ⟨x, _, rfl⟩ := h
    simp [memberArms]
  | oneof fs =>
    simp only [memberItems] at h
    cases v <;> simp only [List.not_mem_nil] at h
    rename_i i x
    cases hi : fs[i]? with
    | none => simp [hi] at h
    | some f =>
      simp only [hi, List.mem_singleton] at h
      subst h
      refine ⟨List.mem_map.mpr ⟨(f, i), List.mem_zipIdx_iff_getElem?.mpr (by simpa using hi), rfl⟩, rfl⟩

theorem mem_msgItems {C : Ctx} {m : Message} {slots : List RVal} {it : Item}
    (h : it ∈ msgItems C m slots) :
    ∃ mem v, (members C.cfg m)[it.1.slot]? = Option.some mem ∧
      (mem, v) ∈ (members C.cfg m).zip slots ∧
      it ∈ memberItems C it.1.slot mem v ∧ it.1 ∈ arms C.cfg m := by
  unfold msgItems at h
  rw [List.mem_flatMap] at h
  obtain ⟨⟨⟨mem, v⟩, j⟩, h1, h2⟩ := h
  have ha := memberItems_arm (Q := AnyValue) (sub := fun _ _ => True) h2
  have h1 := List.mem_zipIdx_iff_getElem?.mp h1
  have h3 : (members C.cfg m)[j]? = Option.some mem := by
    have := List.getElem?_zip_eq_some.mp h1
    exact this.1
  rw [← ha.2] at h2 h3
  refine ⟨mem, v, h3, List.mem_of_getElem? h1, h2, mem_arms.mpr ⟨mem, h3, ?_⟩⟩
  rw [ha.2]; exact ha.1

/-! ### folding the records back -/

theorem applyItem_at (pre : List RVal) (d : RVal) (ds : List RVal) (it : Item)
    (h : it.1.slot = pre.length) :
    applyItem (pre ++ d :: ds) it = pre ++ armApply it.1 d it.2 :: ds := by
  unfold applyItem setSlot
  rw [h]
  clear h
  induction pre with
  | nil => simp
  | cons a pre ih => simp only [List.cons_append, List.length_cons, List.modify_succ_cons, ih]

theorem foldl_applyItem_at (items : List Item) (pre : List RVal) (d : RVal) (ds : List RVal)
    (h : ∀ it ∈ items, it.1.slot = pre.length) :
    items.foldl applyItem (pre ++ d :: ds)
      = pre ++ items.foldl (fun d it => armApply it.1 d it.2) d :: ds := by
  induction items generalizing d with
  | nil => rfl
  | cons it items ih =>
    rw [List.foldl_cons, applyItem_at _ _ _ _ (h it (by simp)), ih _ (fun i hi => h i (by simp [hi]))]
    rfl

theorem foldl_grouped {α : Type} (g : α → Nat → List Item) (l : List α) (ds : List RVal)
    (hl : l.length = ds.length) (pre : List RVal)
    (hslot : ∀ a ∈ l, ∀ j, ∀ it ∈ g a j, it.1.slot = j) (out : List RVal)
    (hout : out.length = l.length)
    (h : ∀ p ∈ (l.zip (ds.zip out)), ∀ j,
      (g p.1 j).foldl (fun d it => armApply it.1 d it.2) p.2.1 = p.2.2) :
    ((l.zipIdx pre.length).flatMap (fun p => g p.1 p.2)).foldl applyItem (pre ++ ds) = pre ++ out := by
  induction l generalizing ds pre out with
  | nil =>
    have : ds = [] := List.eq_nil_of_length_eq_zero (by simpa using hl.symm)
    have : out = [] := List.eq_nil_of_length_eq_zero (by simpa using hout)
    simp_all
  | cons a l ih =>
    match ds, out, hl, hout, h with
    | d :: ds, o :: out, hl, hout, h =>
      rw [List.zipIdx_cons, List.flatMap_cons, List.foldl_append]
      rw [foldl_applyItem_at _ _ _ _ (fun it hit => hslot a (by simp) _ it hit)]
      have h0 := h (a, (d, o)) (by simp) pre.length
      simp only at h0
      rw [h0]
      have := ih ds (by simpa using hl) (pre ++ [o]) (fun b hb => hslot b (by simp [hb])) out
        (by simpa using hout) (fun p hp => h p (by simp only [List.zip_cons_cons, List.mem_cons]; exact Or.inr hp))
      simpa using this

theorem foldl_push (a : Arm) (hc : a.choice = Option.none) (hb : a.field.boxed = false)
    (hg : a.field.frequency.generated = .arrayLike) (hp : a.field.isPacked = false)
    (l acc : List RVal) :
    l.foldl (fun d x => armApply a d x) (.vec acc) = .vec (acc ++ l) := by
  induction l generalizing acc with
  | nil => simp
  | cons x l ih =>
    have : armApply a (.vec acc) x = .vec (acc ++ [x]) := by
      simp [armApply, hc, hb, hg, hp]
    rw [List.foldl_cons, this, ih]
    simp

theorem insertKV_new (k v : RVal) (l : List (RVal × RVal)) (h : ∀ e ∈ l, keyEq e.1 k = false) :
    insertKV k v l = l ++ [(k, v)] := by
  induction l with
  | nil => rfl
  | cons e l ih =>
    obtain ⟨k', v'⟩ := e
    have := h (k', v') (by simp)
    simp only at this
    simp [insertKV, this, ih (fun e he => h e (by simp [he]))]

theorem foldl_insert (a : Arm) (hc : a.choice = Option.none) (hb : a.field.boxed = false)
    (hg : a.field.frequency.generated = .map)
    (l acc : List (RVal × RVal)) (h : (acc ++ l).Pairwise (fun a b => keyEq a.1 b.1 = false)) :
    (l.map (fun e => RVal.map [e])).foldl (fun d x => armApply a d x) (.map acc) = .map (acc ++ l) := by
  induction l generalizing acc with
  | nil => simp
  | cons e l ih =>
    obtain ⟨k, v⟩ := e
    have hd : ∀ e ∈ acc, keyEq e.1 k = false := by
      intro e he
      rw [List.pairwise_append] at h
      exact h.2.2 e he (k, v) (by simp)
    have : armApply a (.map acc) (.map [(k, v)]) = .map (acc ++ [(k, v)]) := by
      simp [armApply, hc, hb, hg, insertKV_new k v acc hd]
    rw [List.map_cons, List.foldl_cons, this, ih _ (by simpa using h)]
    simp

/-- Storing the records of a member, starting from its default, gives its value back. -/
theorem member_restored {C : Ctx} {sub : MessageIndex → RVal → Prop} (custom : Bool) {mem : Member}
    (hok : MemberOk mem) {v : RVal} (h : MemberTyped C (Restorable C) sub mem v) (j : Nat) :
    ((memberItems C j mem v).map (fun it => (it.1, it.2.obs))).foldl
      (fun d it => armApply it.1 d it.2) (slotDefault C custom mem).obs = v.obs := by
  cases mem with
  | oneof fs =>
    rcases h with rfl | ⟨i, f, y, hi, rfl, hy⟩
    · rfl
    · simp [memberItems, hi, armApply, RVal.obs]
  | field f =>
    have hok : FieldOk f := hok
    have key : (memberItems C j (.field f) v).map (fun it => (it.1, it.2.obs))
        = ((memberItems C j (.field f) v).map (fun it => it.2.obs)).map
          (fun x => ((⟨j, f, Option.none⟩ : Arm), x)) := by
      simp only [memberItems, List.map_map]; rfl
    rw [key, List.foldl_map]
    clear key
    simp only [MemberTyped, FieldTyped] at h
    simp only [memberItems, slotDefault]
    cases hg : f.frequency.generated
    · simp only [hg] at h ⊢
      cases ho : f.frequency.isOptional
      · have hb : f.boxed = false := by
          cases hb : f.boxed
          · rfl
          · have := hok.boxed hb; rw [ho] at this; cases this
        have ha : ∀ d x, armApply ⟨j, f, Option.none⟩ d x = x := by
          intro d x; simp [armApply, hb, hg, ho]
        simp only [ho, Bool.false_eq_true, if_false, hb, Bool.and_false, Bool.or_self] at h ⊢
        cases hp : f.hasPresence
        · simp only [Bool.false_eq_true, if_false]
          cases hs : scalarEq f.typ v (fieldDefault C f)
          · simp only [Bool.false_eq_true, if_false, List.map_cons, List.map_nil, List.foldl_cons,
              List.foldl_nil, ha]
          · have := h.2 hp hs
            simp only [if_true, List.map_nil, List.foldl_nil]
            cases custom
            · simp only [Bool.false_eq_true, if_false]; rw [← this.1]
            · simp only [if_true]; rw [← this.2]
        · simp only [if_true, List.map_cons, List.map_nil, List.foldl_cons, List.foldl_nil, ha]
      · have ha : ∀ d x, armApply ⟨j, f, Option.none⟩ d x = .some x := by
          intro d x; simp [armApply, hg, ho]
        simp only [ho, if_true] at h ⊢
        rcases h with rfl | ⟨x, rfl, hx⟩
        · simp
        · simp only [List.map_cons, List.map_nil, List.foldl_cons, List.foldl_nil, ha, RVal.obs]
    · have hgo := (generated_array hg)
      have hb : f.boxed = false := by
        cases hb : f.boxed
        · rfl
        · have := hok.boxed hb; rw [hgo.2.2] at this; cases this
      have e : (GeneratedType.arrayLike == GeneratedType.singular) = false := rfl
      simp only [hg, hb, e, Bool.false_or, Bool.false_and, Bool.false_eq_true, if_false] at h ⊢
      cases hp : f.isPacked
      · simp only [isPackedFixed, hp, Bool.false_and, Bool.false_eq_true, if_false] at h ⊢
        obtain ⟨l, rfl, hl⟩ := h
        simp only [List.map_map, RVal.obs, obsList_eq]
        have := foldl_push ⟨j, f, Option.none⟩ rfl hb hg hp (l.map RVal.obs) []
        simpa [Function.comp_def] using this
      · have ha : ∀ d x, armApply ⟨j, f, Option.none⟩ d x = x := by
          intro d x; simp [armApply, hb, hg, hp]
        cases hfx : f.typ.isFixedSize
        · simp only [isPackedFixed, hp, hfx, Bool.and_false, Bool.false_eq_true, if_false, if_true] at h ⊢
          obtain ⟨l, rfl, hl⟩ := h
          cases l with
          | nil => rfl
          | cons x l => simp [ha]
        · simp only [isPackedFixed, hp, hfx, Bool.and_self, if_true] at h ⊢
          have hdef : ∀ k (c : Bool), pfElems (k := k) (if c = true then .owned [] else .noDataYet) = [] := by
            intro k c; cases c <;> rfl
          by_cases hw : f.typ.wireTypeNumNonPacked = 1
          · rw [if_pos hw] at h ⊢
            obtain ⟨p, rfl, hpf⟩ := h
            cases hE : (pfElems p).isEmpty
            · simp [hE, ha, RVal.obs]
            · have hE' : pfElems p = [] := List.isEmpty_iff.mp hE
              simp [RVal.obs, hE', hdef]
          · rw [if_neg hw] at h ⊢
            obtain ⟨p, rfl, hpf⟩ := h
            cases hE : (pfElems p).isEmpty
            · simp [hE, ha, RVal.obs]
            · have hE' : pfElems p = [] := List.isEmpty_iff.mp hE
              simp [RVal.obs, hE', hdef]
    · have hgo := (generated_map hg)
      have hb : f.boxed = false := by
        cases hb : f.boxed
        · rfl
        · have := hok.boxed hb; rw [hgo.2.2] at this; cases this
      have e : (GeneratedType.map == GeneratedType.singular) = false := rfl
      simp only [hg, hb, e, Bool.false_or, Bool.false_and, Bool.false_eq_true, if_false] at h ⊢
      obtain ⟨k, t, l, ht, rfl, hl, hpw⟩ := h
      have := foldl_insert ⟨j, f, Option.none⟩ rfl hb hg
        (l.map (fun e => (e.1.obs, e.2.obs))) [] (by
          rw [List.nil_append, List.pairwise_map]
          exact hpw.imp (fun h => by simpa [keyEq_obs] using h))
      simp only [RVal.obs, RVal.obsEntries, obsEntries_eq, List.map_map] at this ⊢
      have e2 : (fun (it : Item) => it.2.obs) ∘ (fun x => ((⟨j, f, Option.none⟩ : Arm), x)) ∘ (fun (e : RVal × RVal) => RVal.map [e])
          = (fun e => RVal.map [e]) ∘ (fun (e : RVal × RVal) => (e.1.obs, e.2.obs)) := by
        funext e; simp [RVal.obs, RVal.obsEntries]
      rw [e2]
      simpa using this

theorem isUnit_members {cfg : Config} {m : Message} (h : m.isUnit = true) : members cfg m = [] := by
  cases m
  simp only [Message.isUnit, Bool.and_eq_true, List.isEmpty_iff] at h
  simp [members, h.1.1, h.1.2]

/-- The generated `from_reader` on the wire form of a value gives the value back, up to `obs`. -/
theorem fromReader_ok {C : Ctx} (hT : C.T.bigEndian = false) (hS : SchemaOk C) (hD : IsDefault C)
    (n : Nat) : ∀ idx v, WellTyped C (Restorable C) n idx v → (encMsg C n idx v).length < 2 ^ 32 →
      ∀ k, (encMsg C n idx v).length < k →
        ∃ v', v'.obs = v.obs ∧ ReadsAll C.T (fromReader C k idx) (encMsg C n idx v) v' := by
  induction n with
  | zero => intro idx v h; exact h.elim
  | succ n ih =>
    rintro idx v ⟨m, slots, hm, rfl, hlen, hmem⟩ hB k hk
    obtain ⟨k, rfl⟩ : ∃ k', k = k' + 1 := ⟨k - 1, by omega⟩
    have hok := hS idx m hm
    have hdef := hD idx m hm
    have he : encMsg C (n + 1) idx (.struct slots) = (msgItems C m slots).flatMap (itemEnc (encMsg C n)) := by
      simp only [encMsg, hm, RVal.slots]
    rw [he] at hB hk ⊢
    cases hu : m.isUnit
    · have hne : ∀ it ∈ msgItems C m slots, itemEnc (encMsg C n) it ≠ [] := by
        intro it _ h0
        have := varint_ne_nil (fieldTag it.1.field)
        simp [itemEnc, this] at h0
      obtain ⟨dec, hdec⟩ := choose_on RVal.none (l := msgItems C m slots)
        (P := fun it p' => p'.obs = it.2.obs ∧
          ReadsAs C.T (armRead C (fromReader C k) (k + 1) it.1) (itemPayload (encMsg C n) it) p')
        (fun it hit => by
          obtain ⟨mem, v, _, h2, h3, _⟩ := mem_msgItems hit
          have hl : (itemEnc (encMsg C n) it).length ≤ _ := length_mem_flatMap hit
          have hpos := length_varint_pos (fieldTag it.1.field)
          have hpl : (itemPayload (encMsg C n) it).length
              ≤ ((msgItems C m slots).flatMap (itemEnc (encMsg C n))).length := by
            rw [itemEnc, List.length_append] at hl; omega
          exact armRead_ok hT (B := ((msgItems C m slots).flatMap (itemEnc (encMsg C n))).length)
            (by omega) (by omega) (fun m' v' h' hlt => ih m' v' h' (by omega) k (by omega))
            (hok.members mem (List.of_mem_zip h2).1) (hmem _ h2) _ h3 hpl)
      have hcount := length_le_flatMap hne
      have hr := fromReader_records hm hu k (upd := fun s it => applyItem s (it.1, dec it))
        (msgItems C m slots) hne (fun it hit acc => by
          obtain ⟨_, _, _, _, _, harm⟩ := mem_msgItems hit
          refine msgStep_known (find_arm hok harm rfl) ?_ (hdec it hit).2 acc
          have hn := arm_number hok harm
          have ht := fieldTag_eq hn
          have := reads_varint32 (T := C.T) (n := fieldTag it.1.field)
            (by rw [← ht]; have := it.1.field.tag.isLt; omega)
          rw [← ht, BitVec.ofNat_toNat, BitVec.setWidth_eq] at this
          rw [← ht]; exact this)
        (by omega)
      refine ⟨_, ?_, hr⟩
      simp only [RVal.obs, obsList_eq]
      rw [foldl_obs dec _ (fun it hit => (hdec it hit).1), hdef]
      simp only [RVal.slots]
      congr 1
      have hzl : ((members C.cfg m).zip slots).length = (members C.cfg m).length := by
        rw [List.length_zip, hlen, Nat.min_self]
      have := foldl_grouped
        (fun (p : Member × RVal) j => (memberItems C j p.1 p.2).map (fun it => (it.1, it.2.obs)))
        ((members C.cfg m).zip slots)
        (((members C.cfg m).map (slotDefault C (m.mustGenerateImplDefault C.D C.cfg))).map RVal.obs)
        (by rw [List.length_map, List.length_map, hzl]) []
        (by
          intro a _ j it hit
          obtain ⟨it', hit', rfl⟩ := List.mem_map.mp hit
          exact (memberItems_arm (Q := AnyValue) (sub := fun _ _ => True) hit').2)
        (slots.map RVal.obs) (by rw [List.length_map, hzl, hlen])
        (by
          rintro ⟨⟨mem, v⟩, d, o⟩ hp j
          have : d = (slotDefault C (m.mustGenerateImplDefault C.D C.cfg) mem).obs ∧ o = v.obs := by
            obtain ⟨i, hi⟩ := List.getElem?_of_mem hp
            rw [List.getElem?_zip_eq_some, List.getElem?_zip_eq_some, List.getElem?_zip_eq_some,
              List.getElem?_map, List.getElem?_map, List.getElem?_map] at hi
            obtain ⟨⟨h1, h2⟩, h3, h4⟩ := hi
            simp only at h1 h2 h3 h4
            rw [h1] at h3; rw [h2] at h4
            simp at h3 h4
            exact ⟨h3.symm, h4.symm⟩
          obtain ⟨rfl, rfl⟩ := this
          have hpz := (List.of_mem_zip hp).1
          exact member_restored _ (hok.members mem (List.of_mem_zip hpz).1) (hmem _ hpz) j)
      simp only [List.nil_append, List.length_nil] at this
      rw [← this]
      congr 1
      unfold msgItems
      rw [List.map_flatMap]
    · have h0 : members C.cfg m = [] := isUnit_members hu
      have hs : slots = [] := List.eq_nil_of_length_eq_zero (by rw [hlen, h0]; rfl)
      subst hs
      have hi : msgItems C m [] = [] := by simp [msgItems]
      rw [hi]
      refine ⟨C.dflt idx, ?_, ?_⟩
      · rw [hdef, h0]; rfl
      · intro pre suf hl
        simp only [fromReader, hm, hu, if_true, List.flatMap_nil, List.length_nil, Nat.add_zero]
        rfl

end QP.Gen
