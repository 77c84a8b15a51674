import Verif.Model.Pbrs.Lifetime
import Verif.Spec.Borrow
import Verif.Spec.Schema
import Verif.Proofs.Resolve
/-!
# `has_lifetime`
-/

set_option linter.unusedVariables false

namespace QP.Pbrs

theorem anyM_isSome {α : Type} {p : α → Option Bool} {l : List α} (h : ∀ a ∈ l, (p a).isSome) : (anyM p l).isSome := by
  induction l with
  | nil => rfl
  | cons a l ih =>
    have ha := h a (by simp)
    simp only [anyM]
    cases hp : p a with
    | none => rw [hp] at ha; cases ha
    | some b =>
      cases b with
      | true => rfl
      | false => exact ih fun x hx => h x (by simp [hx])

theorem anyM_true {α : Type} {p : α → Option Bool} {l : List α} (h : anyM p l = some true) : ∃ a ∈ l, p a = some true := by
  induction l with
  | nil => cases h
  | cons a l ih =>
    simp only [anyM] at h
    cases hp : p a with
    | none => rw [hp] at h; cases h
    | some b =>
      rw [hp] at h
      cases b with
      | true => exact ⟨a, by simp, hp⟩
      | false =>
        obtain ⟨x, hx, hx2⟩ := ih h
        exact ⟨x, by simp [hx], hx2⟩

theorem anyM_of_mem {α : Type} {p : α → Option Bool} {l : List α} (h : ∀ a ∈ l, (p a).isSome) {a : α} (ha : a ∈ l)
    (hp : p a = some true) : anyM p l = some true := by
  induction l with
  | nil => cases ha
  | cons x l ih =>
    simp only [anyM]
    have hx := h x (by simp)
    cases hpx : p x with
    | none => rw [hpx] at hx; cases hx
    | some b =>
      cases b with
      | true => rfl
      | false =>
        rcases List.mem_cons.mp ha with rfl | ha
        · rw [hp] at hpx; cases hpx
        · exact ih (fun y hy => h y (by simp [hy])) ha

theorem anyM_iff {α : Type} {p : α → Option Bool} {l : List α} (h : ∀ a ∈ l, (p a).isSome) :
    anyM p l = some true ↔ ∃ a ∈ l, p a = some true :=
  ⟨anyM_true, fun ⟨_, ha, hp⟩ => anyM_of_mem h ha hp⟩

/-! ## Types -/

theorem typ_isSome {rec : MessageIndex → Option Bool} {t : FieldType} {packed : Bool}
    (h : ∀ j, MessageType j t → (rec j).isSome) : (t.hasLifetime rec packed).isSome := by
  induction t generalizing packed with
  | message j => exact h j .message
  | map k v ihk ihv =>
    have h1 := @ihk false (fun j hj => h j (.key v hj))
    have h2 := @ihv false (fun j hj => h j (.value k hj))
    simp only [FieldType.hasLifetime]
    cases hk : FieldType.hasLifetime rec false k with
    | none => rw [hk] at h1; cases h1
    | some b =>
      cases b with
      | true => rfl
      | false => exact h2
  | _ => rfl

/-- What the test says of a type outside of maps. -/
def PackedType (t : FieldType) : Prop := t.isFixedSize = true ∨ t = .string_ ∨ t = .bytes_

theorem typ_iff {rec : MessageIndex → Option Bool} {t : FieldType} {packed : Bool}
    (h : ∀ j, MessageType j t → (rec j).isSome) :
    t.hasLifetime rec packed = some true ↔
      CowType t ∨ (packed = true ∧ PackedType t) ∨ ∃ j, MessageType j t ∧ rec j = some true := by
  induction t generalizing packed with
  | message j =>
    simp only [FieldType.hasLifetime]
    constructor
    · intro hr
      exact Or.inr (Or.inr ⟨j, .message, hr⟩)
    · rintro (hc | ⟨_, hp⟩ | ⟨j', hj, hr⟩)
      · cases hc
      · rcases hp with hp | hp | hp <;> cases hp
      · cases hj; exact hr
  | map k v ihk ihv =>
    have h1 := typ_isSome (t := k) (packed := false) (fun j hj => h j (.key v hj))
    have ik := @ihk false (fun j hj => h j (.key v hj))
    have iv := @ihv false (fun j hj => h j (.value k hj))
    simp only [FieldType.hasLifetime]
    cases hk : FieldType.hasLifetime rec false k with
    | none => rw [hk] at h1; cases h1
    | some b =>
      rw [hk] at ik
      cases b with
      | true =>
        simp only [true_iff]
        rcases ik.mp rfl with hc | ⟨hp, _⟩ | ⟨j, hj, hr⟩
        · exact Or.inl (.key v hc)
        · cases hp
        · exact Or.inr (Or.inr ⟨j, .key v hj, hr⟩)
      | false =>
        simp only
        rw [iv]
        constructor
        · rintro (hc | ⟨hp, _⟩ | ⟨j, hj, hr⟩)
          · exact Or.inl (.value k hc)
          · cases hp
          · exact Or.inr (Or.inr ⟨j, .value k hj, hr⟩)
        · rintro (hc | ⟨_, hp⟩ | ⟨j, hj, hr⟩)
          · cases hc with
            | key _ hc => cases ik.mpr (Or.inl hc)
            | value _ hc => exact Or.inl hc
          · rcases hp with hp | hp | hp <;> cases hp
          · cases hj with
            | key _ hj => cases ik.mpr (Or.inr (Or.inr ⟨j, hj, hr⟩))
            | value _ hj => exact Or.inr (Or.inr ⟨j, hj, hr⟩)
  | stringCow => simp only [FieldType.hasLifetime, true_iff]; exact Or.inl .string
  | bytesCow => simp only [FieldType.hasLifetime, true_iff]; exact Or.inl .bytes
  | fixed64 | sfixed64 | double | fixed32 | sfixed32 | float =>
    simp only [FieldType.hasLifetime, Option.some.injEq]
    constructor
    · intro hp; exact Or.inr (Or.inl ⟨hp, Or.inl rfl⟩)
    · rintro (hc | ⟨hp, _⟩ | ⟨j, hj, _⟩)
      · cases hc
      · exact hp
      · cases hj
  | string_ =>
    simp only [FieldType.hasLifetime, Option.some.injEq]
    constructor
    · intro hp; exact Or.inr (Or.inl ⟨hp, Or.inr (Or.inl rfl)⟩)
    · rintro (hc | ⟨hp, _⟩ | ⟨j, hj, _⟩)
      · cases hc
      · exact hp
      · cases hj
  | bytes_ =>
    simp only [FieldType.hasLifetime, Option.some.injEq]
    constructor
    · intro hp; exact Or.inr (Or.inl ⟨hp, Or.inr (Or.inr rfl)⟩)
    · rintro (hc | ⟨hp, _⟩ | ⟨j, hj, _⟩)
      · cases hc
      · exact hp
      · cases hj
  | _ =>
    simp only [FieldType.hasLifetime, Option.some.injEq]
    constructor
    · intro hp; cases hp
    · rintro (hc | ⟨_, hp⟩ | ⟨j, hj, _⟩)
      · cases hc
      · rcases hp with hp | hp | hp <;> cases hp
      · cases hj

/-! ## Termination -/

mutual
theorem length_preorder (p : MessageIndex) : ∀ m : Message, (m.preorder p).length = m.count
  | ⟨name, fields, oneofs, nums, names, imported, pkg, messages, enums, module, ix⟩ => by
    have := length_preorderAll p 0 messages
    simp only [Message.preorder, Message.count, List.length_cons, this]
    omega
theorem length_preorderAll (p : MessageIndex) : ∀ (i : Nat) (ms : List Message),
    (Message.preorderAll p i ms).length = Message.countAll ms
  | i, [] => rfl
  | i, m :: ms => by
    have h1 := length_preorder (p ++ [i]) m
    have h2 := length_preorderAll p (i + 1) ms
    simp only [Message.preorderAll, Message.countAll, List.length_append, h1, h2]
end

/-- The positions of the messages that are not in `ignore`. -/
def left (D : FileDescriptor) (ignore : List MessageIndex) : List MessageIndex :=
  ((Message.preorderAll [] 0 D.messages).map (·.1)).filter (fun i => decide (i ∉ ignore))

theorem left_nil (D : FileDescriptor) : (left D []).length ≤ Message.countAll D.messages := by
  unfold left
  refine Nat.le_trans (List.length_filter_le _ _) ?_
  rw [List.length_map, length_preorderAll]
  exact Nat.le_refl _

theorem left_le (D : FileDescriptor) (ignore : List MessageIndex) : (left D ignore).length ≤ Message.countAll D.messages := by
  unfold left
  refine Nat.le_trans (List.length_filter_le _ _) ?_
  rw [List.length_map, length_preorderAll]
  exact Nat.le_refl _

theorem filter_lt (l : List MessageIndex) (ig : List MessageIndex) (a : MessageIndex) (ha : a ∈ l) (hn : a ∉ ig) :
    (l.filter (fun i => decide (i ∉ ig ++ [a]))).length < (l.filter (fun i => decide (i ∉ ig))).length := by
  induction l with
  | nil => cases ha
  | cons x l ih =>
    have hle : (l.filter (fun i => decide (i ∉ ig ++ [a]))).length ≤ (l.filter (fun i => decide (i ∉ ig))).length := by
      clear ih ha
      induction l with
      | nil => simp
      | cons y l ih =>
        by_cases h1 : y ∈ ig
        · have h2 : y ∈ ig ++ [a] := by simp [h1]
          simp only [List.filter_cons, h1, h2, not_true, decide_false]
          simpa using ih
        · by_cases h2 : y ∈ ig ++ [a]
          · simp only [List.filter_cons, h1, h2, not_true, decide_false, not_false_eq_true, decide_true, if_true, List.length_cons]
            simp only [Bool.false_eq_true, if_false]
            omega
          · simp only [List.filter_cons, h1, h2, not_false_eq_true, decide_true, if_true, List.length_cons]
            omega
    by_cases hx : x = a
    · subst hx
      simp only [List.filter_cons, hn, List.mem_append, List.mem_singleton, or_true, not_true, decide_false,
        not_false_eq_true, decide_true, if_true, List.length_cons, Bool.false_eq_true, if_false]
      simp only [List.mem_append, List.mem_singleton] at hle
      omega
    · have ha' : a ∈ l := by
        rcases List.mem_cons.mp ha with h | h
        · exact (hx h.symm).elim
        · exact h
      have := ih ha'
      by_cases h1 : x ∈ ig
      · have h2 : x ∈ ig ++ [a] := by simp [h1]
        simp only [List.filter_cons, h1, h2, not_true, decide_false]
        simpa using this
      · have h2 : x ∉ ig ++ [a] := by simp [h1, hx]
        simp only [List.filter_cons, h1, h2, not_false_eq_true, decide_true, if_true, List.length_cons]
        omega

theorem left_lt {D : FileDescriptor} {ignore : List MessageIndex} {i : MessageIndex} {m : Message}
    (hm : D.getMessage i = some m) (hn : i ∉ ignore) : (left D (ignore ++ [i])).length < (left D ignore).length := by
  refine filter_lt _ _ _ ?_ hn
  exact List.mem_map.mpr ⟨(i, m), (mem_preorder_file D i m).mpr hm, rfl⟩

theorem hasLifetimeN_isSome {D : FileDescriptor} {cfg : Config} (hI : IndexOk D) (hR : RefsOk D) (n : Nat) :
    ∀ ignore i, (D.getMessage i).isSome → (left D ignore).length < n → (hasLifetimeN D cfg n ignore i).isSome := by
  induction n with
  | zero => intro _ _ _ h; omega
  | succ n ih =>
    intro ignore i hi hl
    obtain ⟨m, hm⟩ := Option.isSome_iff_exists.mp hi
    simp only [hasLifetimeN, hm]
    have hidx := hI i m hm
    split
    · rfl
    · rename_i hn
      rw [hidx] at hn
      refine anyM_isSome fun f hf => ?_
      rw [Option.isSome_map]
      refine typ_isSome fun j hj => ih _ _ ((hR i m hm f hf).1 j hj) ?_
      rw [hidx]
      have := left_lt hm hn
      omega

/-! ## Meaning -/

/-- `Borrows` as the code sees it: any packed field of a fixed size type (or an owned string) counts. -/
def Direct (cfg : Config) (f : Field) : Prop := Generated cfg f ∧ (CowType f.typ ∨ (f.isPacked = true ∧ PackedType f.typ))

/-- A chain of messages, each held by the one before, the last of which borrows itself. -/
def Chain (D : FileDescriptor) (cfg : Config) : List MessageIndex → Prop
  | [] => False
  | [i] => ∃ m f, D.getMessage i = some m ∧ f ∈ m.allFields ∧ Direct cfg f
  | i :: j :: l => (∃ m f, D.getMessage i = some m ∧ f ∈ m.allFields ∧ Generated cfg f ∧ MessageType j f.typ) ∧
      Chain D cfg (j :: l)

theorem visible_iff {cfg : Config} {f : Field} : f.visible cfg = true ↔ Generated cfg f := by
  simp [Field.visible, Generated, Bool.or_eq_true]

theorem chain_suffix {D : FileDescriptor} {cfg : Config} {a : List MessageIndex} {i : MessageIndex} {c : List MessageIndex}
    (h : Chain D cfg (a ++ i :: c)) : Chain D cfg (i :: c) := by
  induction a with
  | nil => exact h
  | cons x a ih =>
    cases a with
    | nil => exact h.2
    | cons y a => exact ih h.2

theorem chain_nodup {D : FileDescriptor} {cfg : Config} (l : List MessageIndex) : ∀ i, Chain D cfg (i :: l) →
    ∃ l', Chain D cfg (i :: l') ∧ (i :: l').Nodup := by
  induction l with
  | nil => intro i h; exact ⟨[], h, by simp⟩
  | cons j l ih =>
    intro i h
    obtain ⟨l', h1, h2⟩ := ih j h.2
    by_cases hi : i ∈ j :: l'
    · obtain ⟨a, c, hac⟩ := List.append_of_mem hi
      rw [hac] at h1 h2
      exact ⟨c, chain_suffix h1, (List.nodup_append.mp h2).2.1⟩
    · exact ⟨j :: l', ⟨h.1, h1⟩, List.nodup_cons.mpr ⟨hi, h2⟩⟩

theorem hasLifetimeN_of_chain {D : FileDescriptor} {cfg : Config} (hI : IndexOk D) (hR : RefsOk D) (n : Nat) :
    ∀ ignore i l, (left D ignore).length < n → Chain D cfg (i :: l) → (i :: l).Nodup → (∀ x ∈ i :: l, x ∉ ignore) →
      hasLifetimeN D cfg n ignore i = some true := by
  induction n with
  | zero => intro _ _ _ h; omega
  | succ n ih =>
    intro ignore i l hl hc hnd hig
    have hm' : ∃ m, D.getMessage i = some m := by
      cases l with
      | nil => obtain ⟨m, _, hm, _⟩ := hc; exact ⟨m, hm⟩
      | cons j l => obtain ⟨⟨m, _, hm, _⟩, _⟩ := hc; exact ⟨m, hm⟩
    obtain ⟨m, hm⟩ := hm'
    have hidx := hI i m hm
    have hn : i ∉ ignore := hig i (by simp)
    simp only [hasLifetimeN, hm, hidx, if_neg hn]
    have hlt := left_lt hm hn
    have hs : ∀ f ∈ m.allFields, ∀ j, MessageType j f.typ → (hasLifetimeN D cfg n (ignore ++ [i]) j).isSome :=
      fun f hf j hj => hasLifetimeN_isSome hI hR n _ _ ((hR i m hm f hf).1 j hj) (by omega)
    have hs' : ∀ f ∈ m.allFields, ((f.typ.hasLifetime (hasLifetimeN D cfg n (ignore ++ [i])) f.isPacked).map
        (· && f.visible cfg)).isSome := by
      intro f hf
      rw [Option.isSome_map]
      exact typ_isSome (hs f hf)
    have key : ∃ f ∈ m.allFields, Generated cfg f ∧
        f.typ.hasLifetime (hasLifetimeN D cfg n (ignore ++ [i])) f.isPacked = some true := by
      cases l with
      | nil =>
        obtain ⟨m', f, hm', hf, hg, hd⟩ := hc
        cases hm.symm.trans hm'
        exact ⟨f, hf, hg, (typ_iff (hs f hf)).mpr (by
          rcases hd with hd | hd
          · exact Or.inl hd
          · exact Or.inr (Or.inl hd))⟩
      | cons j l =>
        obtain ⟨⟨m', f, hm', hf, hg, hj⟩, hc'⟩ := hc
        cases hm.symm.trans hm'
        have hnd' := List.nodup_cons.mp hnd
        refine ⟨f, hf, hg, (typ_iff (hs f hf)).mpr (Or.inr (Or.inr ⟨j, hj, ?_⟩))⟩
        refine ih _ j l (by omega) hc' hnd'.2 ?_
        intro x hx hx2
        rcases List.mem_append.mp hx2 with hx2 | hx2
        · exact hig x (by simp [List.mem_cons.mp hx]) hx2
        · rw [List.mem_singleton] at hx2
          subst hx2
          exact hnd'.1 hx
    obtain ⟨f, hf, hg, hd⟩ := key
    exact anyM_of_mem hs' hf (by rw [hd]; simp [visible_iff.mpr hg])

theorem chain_of_hasLifetimeN {D : FileDescriptor} {cfg : Config} (hI : IndexOk D) (hR : RefsOk D) (n : Nat) :
    ∀ ignore i, (left D ignore).length < n → hasLifetimeN D cfg n ignore i = some true → ∃ l, Chain D cfg (i :: l) := by
  induction n with
  | zero => intro _ _ h; omega
  | succ n ih =>
    intro ignore i hl h
    simp only [hasLifetimeN] at h
    split at h
    · cases h
    · rename_i m hm
      have hidx := hI i m hm
      split at h
      · cases h
      · rename_i hn
        rw [hidx] at hn h
        obtain ⟨f, hf, hp⟩ := anyM_true h
        obtain ⟨b, hb, hb2⟩ := Option.map_eq_some_iff.mp hp
        simp only [Bool.and_eq_true] at hb2
        obtain ⟨rfl, hv⟩ := hb2
        have hlt := left_lt hm hn
        have hs : ∀ j, MessageType j f.typ → (hasLifetimeN D cfg n (ignore ++ [i]) j).isSome :=
          fun j hj => hasLifetimeN_isSome hI hR n _ _ ((hR i m hm f hf).1 j hj) (by omega)
        rcases (typ_iff hs).mp hb with hc | hp | ⟨j, hj, hr⟩
        · exact ⟨[], m, f, hm, hf, visible_iff.mp hv, Or.inl hc⟩
        · exact ⟨[], m, f, hm, hf, visible_iff.mp hv, Or.inr hp⟩
        · obtain ⟨l, hl⟩ := ih _ j (by omega) hr
          exact ⟨j :: l, ⟨m, f, hm, hf, visible_iff.mp hv, hj⟩, hl⟩

theorem hasLifetime_iff_chain {D : FileDescriptor} {cfg : Config} (hI : IndexOk D) (hR : RefsOk D) (i : MessageIndex) :
    hasLifetime D cfg [] i = some true ↔ ∃ l, Chain D cfg (i :: l) := by
  have hl : (left D []).length < Message.countAll D.messages + 1 := by have := left_nil D; omega
  constructor
  · exact chain_of_hasLifetimeN hI hR _ [] i hl
  · rintro ⟨l, h⟩
    obtain ⟨l', h1, h2⟩ := chain_nodup l i h
    exact hasLifetimeN_of_chain hI hR _ [] i l' hl h1 h2 (by simp)

theorem direct_iff {D : FileDescriptor} {cfg : Config} (hP : PackedSane D) {i : MessageIndex} {m : Message}
    (hm : D.getMessage i = some m) {f : Field} (hf : f ∈ m.allFields) :
    Direct cfg f ↔ Generated cfg f ∧ BorrowsItself f := by
  unfold Direct BorrowsItself
  have hpk : f.isPacked = true ↔ f.packed = some true := by
    unfold Field.isPacked
    cases f.packed with
    | none => simp
    | some b => cases b <;> simp
  constructor
  · rintro ⟨hg, hc | ⟨hp, ht⟩⟩
    · exact ⟨hg, Or.inl hc⟩
    · obtain ⟨h1, h2, h3⟩ := hP i m hm f hf (hpk.mp hp)
      refine ⟨hg, Or.inr ⟨h1, hpk.mp hp, ?_⟩⟩
      rcases ht with ht | ht | ht
      · exact ht
      · exact (h2 ht).elim
      · exact (h3 ht).elim
  · rintro ⟨hg, hc | ⟨_, hp, ht⟩⟩
    · exact ⟨hg, Or.inl hc⟩
    · exact ⟨hg, Or.inr ⟨hpk.mpr hp, Or.inl ht⟩⟩

theorem chain_iff_borrows {D : FileDescriptor} {cfg : Config} (hP : PackedSane D) (i : MessageIndex) :
    (∃ l, Chain D cfg (i :: l)) ↔ Borrows D cfg i := by
  constructor
  · rintro ⟨l, h⟩
    induction l generalizing i with
    | nil =>
      obtain ⟨m, f, hm, hf, hd⟩ := h
      obtain ⟨hg, hb⟩ := (direct_iff hP hm hf).mp hd
      exact .itself hm hf hg hb
    | cons j l ih =>
      obtain ⟨⟨m, f, hm, hf, hg, hj⟩, hc⟩ := h
      exact .through hm hf hg hj (ih j hc)
  · intro h
    induction h with
    | itself hm hf hg hb => exact ⟨[], _, _, hm, hf, (direct_iff hP hm hf).mpr ⟨hg, hb⟩⟩
    | through hm hf hg hj _ ih =>
      obtain ⟨l, hl⟩ := ih
      exact ⟨_ :: l, ⟨_, _, hm, hf, hg, hj⟩, hl⟩

end QP.Pbrs
