import Verif.Proofs.Tarjan
import Verif.Spec.Schema
/-!
# `flatten_messages` and `sccs`
-/

set_option linter.unusedVariables false

namespace QP.Pbrs
open Spec

theorem descend_append {m m' : Message} {is js : List Nat} (h : m.descend is = some m') :
    m.descend (is ++ js) = m'.descend js := by
  induction is generalizing m with
  | nil => simp only [Message.descend, Option.some.injEq] at h; rw [h]; rfl
  | cons i is ih =>
    simp only [Message.descend, List.cons_append] at h ⊢
    cases hm : m.messages[i]? with
    | none => rw [hm] at h; cases h
    | some x => rw [hm] at h; exact ih h

theorem getMessage_append {D : FileDescriptor} {idx js : MessageIndex} {m : Message} (h : D.getMessage idx = some m) :
    D.getMessage (idx ++ js) = m.descend js := by
  cases idx with
  | nil => cases h
  | cons i is =>
    simp only [FileDescriptor.getMessage, List.cons_append] at h ⊢
    cases hm : D.messages[i]? with
    | none => rw [hm] at h; cases h
    | some x => rw [hm] at h; exact descend_append h

theorem getMessage_child {D : FileDescriptor} {idx : MessageIndex} {m : Message} (h : D.getMessage idx = some m) (j : Nat) :
    D.getMessage (idx ++ [j]) = m.messages[j]? := by
  rw [getMessage_append h]
  simp only [Message.descend]
  cases m.messages[j]? <;> rfl

theorem getMessage_prefix {D : FileDescriptor} {idx js : MessageIndex} (hne : idx ≠ [])
    (h : (D.getMessage (idx ++ js)).isSome) : (D.getMessage idx).isSome := by
  have desc : ∀ (is : List Nat) (m : Message), (m.descend (is ++ js)).isSome → (m.descend is).isSome := by
    intro is
    induction is with
    | nil => intro m _; rfl
    | cons i is ih =>
      intro m hm
      simp only [Message.descend, List.cons_append] at hm ⊢
      cases hx : m.messages[i]? with
      | none => rw [hx] at hm; cases hm
      | some x => rw [hx] at hm; exact ih x hm
  cases idx with
  | nil => exact (hne rfl).elim
  | cons i is =>
    simp only [FileDescriptor.getMessage, List.cons_append] at h ⊢
    cases hm : D.messages[i]? with
    | none => rw [hm] at h; cases h
    | some x => rw [hm] at h; exact desc is x h

/-- What is left to do in `flattenLoop`. -/
def weight (D : FileDescriptor) (st : List MessageIndex) : Nat :=
  (st.map (fun i => ((D.getMessage i).map Message.count).getD 0)).sum

theorem countAll_eq (l : List Message) : Message.countAll l = (l.map Message.count).sum := by
  induction l with
  | nil => rfl
  | cons m l ih => simp only [Message.countAll, List.map_cons, List.sum_cons, ih]

theorem count_eq (m : Message) : m.count = 1 + Message.countAll m.messages := by
  cases m; simp only [Message.count]

theorem nodup_get_inj {α : Type} {l : List α} (hn : l.Nodup) {i j : Nat} (hi : i < l.length) (hj : j < l.length)
    (h : l[i] = l[j]) : i = j := by
  have hp := List.pairwise_iff_getElem.mp hn
  rcases Nat.lt_trichotomy i j with hlt | he | hlt
  · exact (hp i j hi hj hlt h).elim
  · exact he
  · exact (hp j i hj hi hlt h.symm).elim

theorem nodup_map_inj {α β : Type} {f : α → β} {l : List α} (hf : ∀ a ∈ l, ∀ b ∈ l, f a = f b → a = b) (hn : l.Nodup) :
    (l.map f).Nodup := by
  rw [List.Nodup, List.pairwise_map]
  exact List.Pairwise.imp_of_mem (fun {a b} ha hb hab he => hab (hf a ha b hb he)) hn

theorem children_eq {D : FileDescriptor} (hI : IndexOk D) {idx : MessageIndex} {m : Message}
    (h : D.getMessage idx = some m) :
    m.messages.map (·.index) = (List.range m.messages.length).map (fun j => idx ++ [j]) := by
  apply List.ext_getElem?
  intro j
  simp only [List.getElem?_map]
  by_cases hj : j < m.messages.length
  · rw [List.getElem?_eq_getElem hj, List.getElem?_range hj]
    simp only [Option.map_some, Option.some.injEq]
    exact hI _ _ (by rw [getMessage_child h]; exact List.getElem?_eq_getElem hj)
  · rw [List.getElem?_eq_none (by omega), List.getElem?_eq_none (by simp; omega)]
    rfl

theorem tops_eq {D : FileDescriptor} (hI : IndexOk D) :
    D.messages.map (·.index) = (List.range D.messages.length).map (fun j => [j]) := by
  apply List.ext_getElem?
  intro j
  simp only [List.getElem?_map]
  by_cases hj : j < D.messages.length
  · rw [List.getElem?_eq_getElem hj, List.getElem?_range hj]
    simp only [Option.map_some, Option.some.injEq]
    refine hI _ _ ?_
    simp only [FileDescriptor.getMessage, List.getElem?_eq_getElem hj, Message.descend, Option.bind_some]
  · rw [List.getElem?_eq_none (by omega), List.getElem?_eq_none (by simp; omega)]
    rfl

theorem weight_append (D : FileDescriptor) (a b : List MessageIndex) : weight D (a ++ b) = weight D a + weight D b := by
  simp [weight]

theorem weight_reverse (D : FileDescriptor) (a : List MessageIndex) : weight D a.reverse = weight D a := by
  simp [weight]

theorem weight_children {D : FileDescriptor} (l : List Message) (p : Nat → MessageIndex)
    (h : ∀ j, D.getMessage (p j) = l[j]?) : weight D ((List.range l.length).map p) = Message.countAll l := by
  rw [countAll_eq, weight]
  congr 1
  apply List.ext_getElem?
  intro j
  simp only [List.getElem?_map, List.map_map]
  by_cases hj : j < l.length
  · rw [List.getElem?_eq_getElem hj, List.getElem?_range hj]
    simp only [Function.comp, Option.map_some, h j, List.getElem?_eq_getElem hj, Option.getD_some]
  · rw [List.getElem?_eq_none (by simp; omega), List.getElem?_eq_none (by omega)]
    rfl

/-- No element is a prefix of another. -/
def Antichain (st : List MessageIndex) : Prop := st.Pairwise (fun a b => ¬ a <+: b ∧ ¬ b <+: a)

theorem prefix_or_child {m x : MessageIndex} (h : m <+: x) : x = m ∨ ∃ j, m ++ [j] <+: x := by
  obtain ⟨t, rfl⟩ := h
  cases t with
  | nil => exact Or.inl (by simp)
  | cons j t => exact Or.inr ⟨j, t, by simp⟩

theorem flattenLoop_ok {D : FileDescriptor} (hI : IndexOk D) (fuel : Nat) : ∀ st acc,
    weight D st ≤ fuel → (∀ i ∈ st, i ≠ [] ∧ (D.getMessage i).isSome) → Antichain st →
    ∃ l, flattenLoop D fuel st acc = some (acc ++ l) ∧ l.Nodup ∧
      ∀ x, x ∈ l ↔ (D.getMessage x).isSome ∧ ∃ i ∈ st, i <+: x := by
  induction fuel with
  | zero =>
    intro st acc hw hv _
    cases st with
    | nil => exact ⟨[], by simp [flattenLoop], List.nodup_nil, by simp⟩
    | cons m ms =>
      exfalso
      obtain ⟨msg, hm⟩ := Option.isSome_iff_exists.mp (hv m (by simp)).2
      simp only [weight, List.map_cons, hm, Option.map_some, Option.getD_some, List.sum_cons, count_eq] at hw
      omega
  | succ fuel ih =>
    intro st acc hw hv hac
    cases st with
    | nil => exact ⟨[], by simp [flattenLoop], List.nodup_nil, by simp⟩
    | cons m ms =>
      obtain ⟨msg, hm⟩ := Option.isSome_iff_exists.mp (hv m (by simp)).2
      have hac' := List.pairwise_cons.mp hac
      have hch := children_eq hI hm
      have hmemch : ∀ i, i ∈ (msg.messages.map (·.index)).reverse ↔ ∃ j, j < msg.messages.length ∧ i = m ++ [j] := by
        intro i
        rw [List.mem_reverse, hch]
        simp only [List.mem_map, List.mem_range]
        constructor
        · rintro ⟨j, hj, rfl⟩; exact ⟨j, hj, rfl⟩
        · rintro ⟨j, hj, rfl⟩; exact ⟨j, hj, rfl⟩
      have hwc : weight D (msg.messages.map (·.index)).reverse = Message.countAll msg.messages := by
        rw [weight_reverse, hch]
        exact weight_children _ _ (fun j => getMessage_child hm j)
      have hw' : weight D ((msg.messages.map (·.index)).reverse ++ ms) ≤ fuel := by
        rw [weight_append, hwc]
        have : weight D (m :: ms) = msg.count + weight D ms := by
          simp [weight, hm]
        rw [this, count_eq] at hw
        omega
      obtain ⟨l, h1, h2, h3⟩ := ih ((msg.messages.map (·.index)).reverse ++ ms) (acc ++ [m]) hw' (by
        intro i hi
        rcases List.mem_append.mp hi with hi | hi
        · obtain ⟨j, hj, rfl⟩ := (hmemch i).mp hi
          refine ⟨by simp, ?_⟩
          rw [getMessage_child hm, List.getElem?_eq_getElem hj]; rfl
        · exact hv i (by simp [hi])) (by
        refine List.pairwise_append.mpr ⟨?_, hac'.2, ?_⟩
        · rw [hch, List.pairwise_reverse, List.pairwise_map]
          refine List.Pairwise.imp_of_mem ?_ (List.nodup_range (n := msg.messages.length))
          intro a b _ _ hab
          constructor
          · intro hp
            have := List.IsPrefix.eq_of_length hp (by simp)
            simp at this; exact hab this.symm
          · intro hp
            have := List.IsPrefix.eq_of_length hp (by simp)
            simp at this; exact hab this
        · intro a ha b hb
          obtain ⟨j, hj, rfl⟩ := (hmemch a).mp ha
          have hmb := hac'.1 b hb
          constructor
          · intro hp
            exact hmb.1 (List.IsPrefix.trans (List.prefix_append m [j]) hp)
          · intro hp
            rcases List.prefix_concat_iff.mp hp with he | hp
            · exact hmb.1 (by rw [he]; exact List.prefix_append m [j])
            · exact hmb.2 hp)
      refine ⟨m :: l, ?_, ?_, ?_⟩
      · simp only [flattenLoop, hm, h1, List.append_assoc, List.singleton_append]
      · refine List.nodup_cons.mpr ⟨fun hml => ?_, h2⟩
        obtain ⟨_, i, hi, hp⟩ := (h3 m).mp hml
        rcases List.mem_append.mp hi with hi | hi
        · obtain ⟨j, hj, rfl⟩ := (hmemch i).mp hi
          have := hp.length_le
          simp at this
          omega
        · exact (hac'.1 i hi).2 hp
      · intro x
        rw [List.mem_cons, h3 x]
        constructor
        · rintro (rfl | ⟨hx, i, hi, hp⟩)
          · exact ⟨by rw [hm]; rfl, _, by simp, List.prefix_refl _⟩
          · rcases List.mem_append.mp hi with hi | hi
            · obtain ⟨j, hj, rfl⟩ := (hmemch i).mp hi
              exact ⟨hx, m, by simp, List.IsPrefix.trans (List.prefix_append m [j]) hp⟩
            · exact ⟨hx, i, by simp [hi], hp⟩
        · rintro ⟨hx, i, hi, hp⟩
          rcases List.mem_cons.mp hi with rfl | hi
          · rcases prefix_or_child hp with rfl | ⟨j, hj⟩
            · exact Or.inl rfl
            · refine Or.inr ⟨hx, i ++ [j], List.mem_append_left _ ((hmemch _).mpr ⟨j, ?_, rfl⟩), hj⟩
              obtain ⟨t, rfl⟩ := hj
              have := getMessage_prefix (idx := i ++ [j]) (by simp) hx
              rw [getMessage_child hm] at this
              by_cases hjl : j < msg.messages.length
              · exact hjl
              · rw [List.getElem?_eq_none (by omega)] at this; cases this
          · exact Or.inr ⟨hx, i, List.mem_append_right _ hi, hp⟩

/-- `flatten_messages` lists every message of the schema exactly once. -/
theorem flattenMessages_ok {D : FileDescriptor} (hI : IndexOk D) :
    ∃ vs, D.flattenMessages = some vs ∧ vs.Nodup ∧ ∀ x, x ∈ vs ↔ (D.getMessage x).isSome := by
  have htop := tops_eq hI
  have hget : ∀ j, D.getMessage [j] = D.messages[j]? := by
    intro j
    simp only [FileDescriptor.getMessage, Message.descend]
    cases D.messages[j]? <;> rfl
  have hmem : ∀ i, i ∈ (D.messages.map (·.index)).reverse ↔ ∃ j, j < D.messages.length ∧ i = [j] := by
    intro i
    rw [List.mem_reverse, htop]
    simp only [List.mem_map, List.mem_range]
    constructor
    · rintro ⟨j, hj, rfl⟩; exact ⟨j, hj, rfl⟩
    · rintro ⟨j, hj, rfl⟩; exact ⟨j, hj, rfl⟩
  obtain ⟨l, h1, h2, h3⟩ := flattenLoop_ok hI (Message.countAll D.messages) (D.messages.map (·.index)).reverse [] (by
      rw [weight_reverse, htop, weight_children _ _ hget]
      exact Nat.le_refl _) (by
      intro i hi
      obtain ⟨j, hj, rfl⟩ := (hmem i).mp hi
      refine ⟨by simp, ?_⟩
      rw [hget, List.getElem?_eq_getElem hj]; rfl) (by
      rw [htop, Antichain, List.pairwise_reverse, List.pairwise_map]
      refine List.Pairwise.imp_of_mem ?_ (List.nodup_range (n := D.messages.length))
      intro a b _ _ hab
      constructor
      · intro hp
        have := List.IsPrefix.eq_of_length hp (by simp)
        simp at this; exact hab this.symm
      · intro hp
        have := List.IsPrefix.eq_of_length hp (by simp)
        simp at this; exact hab this)
  refine ⟨l, by simp only [FileDescriptor.flattenMessages, h1, List.nil_append], h2, fun x => ?_⟩
  rw [h3 x]
  refine ⟨fun h => h.1, fun h => ⟨h, ?_⟩⟩
  cases x with
  | nil => cases h
  | cons j t =>
    refine ⟨[j], (hmem _).mpr ⟨j, ?_, rfl⟩, t, by simp⟩
    have := getMessage_prefix (idx := [j]) (js := t) (by simp) (by simpa using h)
    rw [hget] at this
    by_cases hjl : j < D.messages.length
    · exact hjl
    · rw [List.getElem?_eq_none (by omega)] at this; cases this

/-! ## Vertex numbers and messages -/

theorem idOf_some {vs : List MessageIndex} (hn : vs.Nodup) {m : MessageIndex} {i : Nat} :
    idOf vs m = some i ↔ vs[i]? = some m := by
  unfold idOf
  constructor
  · intro h
    have := List.find?_some h
    simpa using this
  · intro h
    have hlt : i < vs.length := by
      by_cases hl : i < vs.length
      · exact hl
      · rw [List.getElem?_eq_none (by omega)] at h; cases h
    cases hf : List.find? (fun i => vs[i]? == some m) (List.range vs.length).reverse with
    | none =>
      exfalso
      have := List.find?_eq_none.mp hf i (by simp [hlt])
      simp [h] at this
    | some j =>
      have hj := List.find?_some hf
      simp only [beq_iff_eq] at hj
      have hjl : j < vs.length := by
        by_cases hl : j < vs.length
        · exact hl
        · rw [List.getElem?_eq_none (by omega)] at hj; cases hj
      rw [List.getElem?_eq_getElem hlt] at h
      rw [List.getElem?_eq_getElem hjl] at hj
      have : vs[j] = vs[i] := by
        have a := Option.some.inj h
        have b := Option.some.inj hj
        rw [a, b]
      exact congrArg some (nodup_get_inj hn hjl hlt this)

theorem mem_byValue {m : Message} {j : MessageIndex} :
    j ∈ m.byValue ↔ ∃ f ∈ m.allFields, f.boxed = false ∧ f.frequency.isRepeated = false ∧ f.typ = .message j := by
  unfold Message.byValue
  simp only [List.mem_filterMap, List.mem_filter, Bool.and_eq_true, Bool.not_eq_true']
  constructor
  · rintro ⟨f, ⟨hf, hb, hr⟩, ht⟩
    refine ⟨f, hf, hb, hr, ?_⟩
    cases h : f.typ <;> rw [h] at ht <;> simp [FieldType.asMessage] at ht
    rw [ht]
  · rintro ⟨f, hf, hb, hr, ht⟩
    exact ⟨f, ⟨hf, hb, hr⟩, by rw [ht]; rfl⟩

theorem contains_iff {D : FileDescriptor} {i j : MessageIndex} :
    Contains D i j ↔ ∃ m, D.getMessage i = some m ∧ j ∈ m.byValue ∧ (D.getMessage j).isSome := by
  constructor
  · rintro ⟨m, f, hm, hf, hb, hr, ht, hj⟩
    exact ⟨m, hm, mem_byValue.mpr ⟨f, hf, hb, hr, ht⟩, hj⟩
  · rintro ⟨m, hm, hj, hs⟩
    obtain ⟨f, hf, hb, hr, ht⟩ := mem_byValue.mp hj
    exact ⟨m, f, hm, hf, hb, hr, ht, hs⟩

theorem mem_adj {D : FileDescriptor} {vs : List MessageIndex} (hn : vs.Nodup)
    (hv : ∀ x, x ∈ vs ↔ (D.getMessage x).isSome) {a b : Nat} :
    b ∈ D.adj vs a ↔ ∃ i j, vs[a]? = some i ∧ vs[b]? = some j ∧ Contains D i j := by
  unfold FileDescriptor.adj
  cases ha : vs[a]? with
  | none => simp
  | some i =>
    simp only [Option.bind_some]
    cases hm : D.getMessage i with
    | none =>
      simp only [List.not_mem_nil, false_iff]
      rintro ⟨i', j, h1, _, h3⟩
      cases h1
      obtain ⟨m, hm', _⟩ := contains_iff.mp h3
      rw [hm] at hm'; cases hm'
    | some m =>
      simp only [List.mem_filterMap]
      constructor
      · rintro ⟨j, hj, hid⟩
        have hb := (idOf_some hn).mp hid
        exact ⟨i, j, rfl, hb, contains_iff.mpr ⟨m, hm, hj, (hv j).mp (List.mem_of_getElem? hb)⟩⟩
      · rintro ⟨i', j, h1, h2, h3⟩
        cases h1
        obtain ⟨m', hm', hj, _⟩ := contains_iff.mp h3
        rw [hm] at hm'; cases hm'
        exact ⟨j, hj, (idOf_some hn).mpr h2⟩

/-- Components of messages: each message in exactly one, strongly connected, in an order in which containment never leads
to a later component. -/
structure MsgComponents (D : FileDescriptor) (cs : List (List MessageIndex)) : Prop where
  partition : cs.flatten.Nodup ∧ ∀ x, x ∈ cs.flatten ↔ (D.getMessage x).isSome
  nonempty : ∀ c ∈ cs, c ≠ []
  strong : ∀ c ∈ cs, ∀ x ∈ c, ∀ y ∈ c, Path (Contains D) x y
  closed : ∀ l c l', cs = l ++ c :: l' → ∀ y ∈ c, ∀ z, Contains D y z → z ∈ c ∨ ∃ c' ∈ l, z ∈ c'

theorem filterMap_get {vs : List MessageIndex} {c : List Nat} (h : ∀ i ∈ c, i < vs.length) :
    c.filterMap (fun i => vs[i]?) = c.map (fun i => vs.getD i []) := by
  induction c with
  | nil => rfl
  | cons i c ih =>
    have hi := h i (by simp)
    rw [List.filterMap_cons, List.getElem?_eq_getElem hi]
    simp only [List.map_cons, List.getD_eq_getElem?_getD, List.getElem?_eq_getElem hi, Option.getD_some]
    rw [ih (fun j hj => h j (by simp [hj]))]
    simp only [List.getD_eq_getElem?_getD]

theorem map_append_cons {α β : Type} {f : α → β} {l : List α} {a : List β} {b : β} {c : List β}
    (h : l.map f = a ++ b :: c) : ∃ a' b' c', l = a' ++ b' :: c' ∧ a'.map f = a ∧ f b' = b ∧ c'.map f = c := by
  obtain ⟨l1, l2, rfl, h1, h2⟩ := List.map_eq_append_iff.mp h
  obtain ⟨b', l3, rfl, h3, h4⟩ := List.map_eq_cons_iff.mp h2
  exact ⟨l1, b', l3, rfl, h1, h3, h4⟩

theorem sccs_ok {D : FileDescriptor} (hI : IndexOk D) : ∃ cs, D.sccs = some cs ∧ MsgComponents D cs := by
  obtain ⟨vs, hf, hn, hv⟩ := flattenMessages_ok hI
  have hadj : ∀ u < vs.length, ∀ v ∈ D.adj vs u, v < vs.length := by
    intro u hu v hmem
    obtain ⟨i, j, _, h2, _⟩ := (mem_adj hn hv).mp hmem
    by_cases hl : v < vs.length
    · exact hl
    · rw [List.getElem?_eq_none (by omega)] at h2; cases h2
  obtain ⟨cs, hcs, hc⟩ := sccNumbers_ok hadj
  have hlt : ∀ c ∈ cs, ∀ i ∈ c, i < vs.length := fun c h i hi =>
    (hc.partition.2 i).mp (List.mem_flatten.mpr ⟨c, h, hi⟩)
  have hmap : (cs.map fun c => c.filterMap (fun i => vs[i]?)) = cs.map (fun c => c.map (fun i => vs.getD i [])) :=
    List.map_congr_left fun c h => filterMap_get (hlt c h)
  have hgetD : ∀ i, i < vs.length → vs[i]? = some (vs.getD i []) := by
    intro i hi
    simp only [List.getD_eq_getElem?_getD, List.getElem?_eq_getElem hi, Option.getD_some]
  have hpath : ∀ a b, a < vs.length → Path (Edge (D.adj vs)) a b → Path (Contains D) (vs.getD a []) (vs.getD b []) := by
    intro a b ha h
    induction h with
    | refl => exact Path.refl _
    | step h1 e ih =>
      have hb := path_lt hadj ha h1
      obtain ⟨i, j, h1', h2', h3'⟩ := (mem_adj hn hv).mp e
      rw [hgetD _ hb] at h1'; cases h1'
      rw [hgetD _ (hadj _ hb _ e)] at h2'; cases h2'
      exact ih.step h3'
  refine ⟨cs.map (fun c => c.map (fun i => vs.getD i [])), ?_, ⟨?_, ?_⟩, ?_, ?_, ?_⟩
  · simp only [FileDescriptor.sccs, hf, hcs, Option.map_some, hmap]
  · rw [← List.map_flatten]
    refine nodup_map_inj ?_ hc.partition.1
    intro a ha b hb e
    have ha' := (hc.partition.2 a).mp ha
    have hb' := (hc.partition.2 b).mp hb
    simp only [List.getD_eq_getElem?_getD, List.getElem?_eq_getElem ha', List.getElem?_eq_getElem hb',
      Option.getD_some] at e
    exact nodup_get_inj hn ha' hb' e
  · intro x
    rw [← List.map_flatten, List.mem_map, ← hv x]
    constructor
    · rintro ⟨i, hi, rfl⟩
      exact List.mem_of_getElem? (hgetD i ((hc.partition.2 i).mp hi))
    · intro hx
      obtain ⟨i, hi⟩ := List.mem_iff_getElem?.mp hx
      have hl : i < vs.length := by
        by_cases hl : i < vs.length
        · exact hl
        · rw [List.getElem?_eq_none (by omega)] at hi; cases hi
      refine ⟨i, (hc.partition.2 i).mpr hl, ?_⟩
      rw [hgetD i hl] at hi
      exact Option.some.inj hi
  · intro c hcm
    obtain ⟨c', hc', rfl⟩ := List.mem_map.mp hcm
    have := hc.nonempty c' hc'
    simpa using this
  · intro c hcm x hx y hy
    obtain ⟨c', hc', rfl⟩ := List.mem_map.mp hcm
    obtain ⟨a, ha, rfl⟩ := List.mem_map.mp hx
    obtain ⟨b, hb, rfl⟩ := List.mem_map.mp hy
    exact hpath a b (hlt c' hc' a ha) (hc.strong c' hc' a ha b hb)
  · intro l c l' he y hy z hz
    obtain ⟨l1, c1, l2, he', hl1, hc1, _⟩ := map_append_cons he
    rw [← hc1] at hy
    obtain ⟨a, ha, rfl⟩ := List.mem_map.mp hy
    have hal := hlt c1 (by rw [he']; simp) a ha
    obtain ⟨m, _, _, hzs⟩ := contains_iff.mp hz
    obtain ⟨b, hb⟩ := List.mem_iff_getElem?.mp ((hv z).mpr hzs)
    have hbe : vs.getD b [] = z := by
      simp only [List.getD_eq_getElem?_getD, hb, Option.getD_some]
    rcases hc.closed l1 c1 l2 he' a ha b ((mem_adj hn hv).mpr ⟨_, z, hgetD a hal, hb, hz⟩) with h | ⟨c', h1, h2⟩
    · left; rw [← hc1]; exact List.mem_map.mpr ⟨b, h, hbe⟩
    · right
      exact ⟨_, by rw [← hl1]; exact List.mem_map.mpr ⟨c', h1, rfl⟩, List.mem_map.mpr ⟨b, h2, hbe⟩⟩

end QP.Pbrs
