import Verif.Proofs.Lifetime
/-!
# Lifetime parameters (C51)
-/

set_option linter.unusedVariables false

namespace QP.Pbrs

/-- The recursion of `has_lifetime` ends on every message graph, cyclic or not, and does not panic: the depth is at most the
number of messages. -/
theorem C51_terminates {D : FileDescriptor} (cfg : Config) (hI : IndexOk D) (hR : RefsOk D) (ignore : List MessageIndex)
    {i : MessageIndex} (hi : (D.getMessage i).isSome) : (hasLifetime D cfg ignore i).isSome := by
  refine hasLifetimeN_isSome hI hR _ ignore i hi ?_
  have := left_le D ignore
  omega

/-- The code's answer for a message is "yes" iff the message can borrow from the input. -/
theorem C51_reachable_partial {D : FileDescriptor} (cfg : Config) (hI : IndexOk D) (hR : RefsOk D) (hP : PackedSane D)
    (i : MessageIndex) : hasLifetime D cfg [] i = some true ↔ Borrows D cfg i := by
  rw [hasLifetime_iff_chain hI hR, chain_iff_borrows hP]

/-- Without `dont_use_cow`, a struct gets the parameter `<'a>` iff it can borrow from the input. -/
theorem C51_struct_partial {D : FileDescriptor} {cfg : Config} (hc : cfg.dontUseCow = false) (hI : IndexOk D) (hR : RefsOk D)
    (hP : PackedSane D) (i : MessageIndex) : structDeclares D cfg i = some true ↔ Borrows D cfg i := by
  unfold structDeclares
  rw [hc]
  exact C51_reachable_partial cfg hI hR hP i

theorem rustType_iff {D : FileDescriptor} {cfg : Config} (hI : IndexOk D) (hR : RefsOk D) (hP : PackedSane D) {t : FieldType}
    (hn : t.noNames) (hr : ∀ j, MessageType j t → (D.getMessage j).isSome) :
    ∃ r, t.rustType D cfg = some r ∧ (r.mentions = true ↔ CowType t ∨ ∃ j, MessageType j t ∧ Borrows D cfg j) := by
  induction t with
  | message j =>
    obtain ⟨b, hb⟩ := Option.isSome_iff_exists.mp (C51_terminates cfg hI hR [] (hr j .message))
    refine ⟨.struct_ j b, by simp [FieldType.rustType, hb], ?_⟩
    have := C51_reachable_partial cfg hI hR hP j
    rw [hb] at this
    simp only [Option.some.injEq] at this
    simp only [RustType.mentions, this]
    constructor
    · intro h; exact Or.inr ⟨j, .message, h⟩
    · rintro (hc | ⟨j', hj, h⟩)
      · cases hc
      · cases hj; exact h
  | map k v ihk ihv =>
    obtain ⟨rk, h1, h2⟩ := ihk hn.1 (fun j hj => hr j (.key v hj))
    obtain ⟨rv, h3, h4⟩ := ihv hn.2 (fun j hj => hr j (.value k hj))
    refine ⟨.kvMap rk rv, by simp [FieldType.rustType, h1, h3], ?_⟩
    simp only [RustType.mentions, Bool.or_eq_true, h2, h4]
    constructor
    · rintro ((h | ⟨j, hj, h⟩) | (h | ⟨j, hj, h⟩))
      · exact Or.inl (.key v h)
      · exact Or.inr ⟨j, .key v hj, h⟩
      · exact Or.inl (.value k h)
      · exact Or.inr ⟨j, .value k hj, h⟩
    · rintro (h | ⟨j, hj, h⟩)
      · cases h with
        | key _ h => exact Or.inl (Or.inl h)
        | value _ h => exact Or.inr (Or.inl h)
      · cases hj with
        | key _ hj => exact Or.inl (Or.inr ⟨j, hj, h⟩)
        | value _ hj => exact Or.inr (Or.inr ⟨j, hj, h⟩)
  | messageOrEnum _ => exact hn.elim
  | stringCow => exact ⟨_, rfl, by simp only [RustType.mentions, true_iff]; exact Or.inl .string⟩
  | bytesCow => exact ⟨_, rfl, by simp only [RustType.mentions, true_iff]; exact Or.inl .bytes⟩
  | _ =>
    refine ⟨_, rfl, ?_⟩
    simp only [RustType.mentions, Bool.false_eq_true, false_iff, not_or, not_exists, not_and]
    exact ⟨(fun h => by cases h), (fun j hj => by cases hj)⟩

/-- What makes a generated field keep data of the input, itself or in the message it holds. -/
def FieldBorrows (D : FileDescriptor) (cfg : Config) (f : Field) : Prop :=
  BorrowsItself f ∨ ∃ j, MessageType j f.typ ∧ Borrows D cfg j

theorem borrows_iff {D : FileDescriptor} {cfg : Config} {i : MessageIndex} {m : Message} (hm : D.getMessage i = some m) :
    Borrows D cfg i ↔ ∃ f ∈ m.allFields, Generated cfg f ∧ FieldBorrows D cfg f := by
  constructor
  · intro h
    cases h with
    | itself hm' hf hg hb =>
      cases hm.symm.trans hm'
      exact ⟨_, hf, hg, Or.inl hb⟩
    | through hm' hf hg hj hb =>
      cases hm.symm.trans hm'
      exact ⟨_, hf, hg, Or.inr ⟨_, hj, hb⟩⟩
  · rintro ⟨f, hf, hg, hb | ⟨j, hj, hb⟩⟩
    · exact .itself hm hf hg hb
    · exact .through hm hf hg hj hb

/-- The type printed for a field contains `'a` iff the field borrows. -/
theorem getType_iff {D : FileDescriptor} {cfg : Config} (hc : cfg.dontUseCow = false) (hI : IndexOk D) (hR : RefsOk D)
    (hP : PackedSane D) (hB : BoxedSane D) {i : MessageIndex} {m : Message} (hm : D.getMessage i = some m) {f : Field}
    (hf : f ∈ m.allFields) :
    ∃ r, f.getType D cfg = some r ∧ (r.mentions = true ↔ FieldBorrows D cfg f) := by
  obtain ⟨r, h1, h2⟩ := rustType_iff (cfg := cfg) hI hR hP (hR i m hm f hf).2 (hR i m hm f hf).1
  have hpk : f.isPacked = true ↔ f.packed = some true := by
    unfold Field.isPacked
    cases f.packed with
    | none => simp
    | some b => cases b <;> simp
  refine ⟨_, by rw [Field.getType, h1]; rfl, ?_⟩
  unfold FieldBorrows BorrowsItself
  by_cases hb : f.boxed = true
  · obtain ⟨j, hj⟩ := hB i m hm f hf hb
    simp only [hb, if_true, RustType.mentions, h2]
    rw [hj]
    constructor
    · rintro (h | h)
      · exact Or.inl (Or.inl h)
      · exact Or.inr h
    · rintro ((h | ⟨_, _, h⟩) | h)
      · exact Or.inl h
      · cases h
      · exact Or.inr h
  · simp only [hb, Bool.false_eq_true, if_false]
    have hplain : ¬ (f.frequency.isRepeated = true ∧ f.packed = some true ∧ f.typ.isFixedSize = true) →
        (r.mentions = true ↔ (CowType f.typ ∨ f.frequency.isRepeated = true ∧ f.packed = some true ∧
          f.typ.isFixedSize = true) ∨ ∃ j, MessageType j f.typ ∧ Borrows D cfg j) := by
      intro hx
      rw [h2]
      constructor
      · rintro (h | h)
        · exact Or.inl (Or.inl h)
        · exact Or.inr h
      · rintro ((h | h) | h)
        · exact Or.inl h
        · exact (hx h).elim
        · exact Or.inr h
    cases hg : f.frequency.generated with
    | singular =>
      have hnr : f.frequency.isRepeated = false := by
        cases hfr : f.frequency <;> rw [hfr] at hg <;> first | rfl | cases hg
      have := hplain (by simp [hnr])
      simp only
      split
      · simpa only [RustType.mentions] using this
      · exact this
    | map =>
      have hnr : f.frequency.isRepeated = false := by
        cases hfr : f.frequency <;> rw [hfr] at hg <;> first | rfl | cases hg
      exact hplain (by simp [hnr])
    | arrayLike =>
      have hrp : f.frequency.isRepeated = true := by
        cases hfr : f.frequency <;> rw [hfr] at hg <;> first | rfl | cases hg
      simp only [hc, Bool.not_false, Bool.and_true]
      split
      · rename_i hpf
        simp only [Bool.and_eq_true] at hpf
        simp only [RustType.mentions, true_iff]
        exact Or.inl (Or.inr ⟨hrp, hpk.mp hpf.1, hpf.2⟩)
      · rename_i hpf
        have := hplain (by
          rintro ⟨_, h3, h4⟩
          exact hpf (by simp [hpk.mpr h3, h4]))
        simpa only [RustType.mentions] using this

/-- The enum of a oneof gets `<'a>` iff a generated variant borrows. -/
theorem oneof_iff {D : FileDescriptor} {cfg : Config} (hI : IndexOk D) (hR : RefsOk D) (hP : PackedSane D)
    {i : MessageIndex} {m : Message} (hm : D.getMessage i = some m) {o : OneOf} (ho : o ∈ m.oneofs) :
    ∃ b, o.hasLifetime D cfg = some b ∧ (b = true ↔ ∃ f ∈ o.fields, Generated cfg f ∧ FieldBorrows D cfg f) := by
  have hmem : ∀ f ∈ o.fields, f ∈ m.allFields := fun f hf => by
    simp only [Message.allFields, List.mem_append, List.mem_flatMap]
    exact Or.inr ⟨o, ho, hf⟩
  have hs : ∀ f ∈ o.fields, ∀ j, MessageType j f.typ → (hasLifetime D cfg [] j).isSome :=
    fun f hf j hj => C51_terminates cfg hI hR [] ((hR i m hm f (hmem f hf)).1 j hj)
  have hs' : ∀ f ∈ o.fields, ((f.typ.hasLifetime (hasLifetime D cfg []) f.isPacked).map (· && f.visible cfg)).isSome := by
    intro f hf
    rw [Option.isSome_map]
    exact typ_isSome (hs f hf)
  obtain ⟨b, hb⟩ := Option.isSome_iff_exists.mp (anyM_isSome hs')
  refine ⟨b, hb, ?_⟩
  have := anyM_iff hs'
  rw [hb, Option.some.injEq] at this
  rw [this]
  constructor
  · rintro ⟨f, hf, h⟩
    obtain ⟨b, hb, hb2⟩ := Option.map_eq_some_iff.mp h
    simp only [Bool.and_eq_true] at hb2
    obtain ⟨rfl, hv⟩ := hb2
    have hg := visible_iff.mp hv
    refine ⟨f, hf, hg, ?_⟩
    rcases (typ_iff (hs f hf)).mp hb with hc | hp | ⟨j, hj, hr⟩
    · exact Or.inl (Or.inl hc)
    · exact Or.inl ((direct_iff hP hm (hmem f hf)).mp ⟨hg, Or.inr hp⟩).2
    · exact Or.inr ⟨j, hj, (C51_reachable_partial cfg hI hR hP j).mp hr⟩
  · rintro ⟨f, hf, hg, hb⟩
    refine ⟨f, hf, ?_⟩
    have : f.typ.hasLifetime (hasLifetime D cfg []) f.isPacked = some true := by
      rw [typ_iff (hs f hf)]
      rcases hb with hb | ⟨j, hj, hr⟩
      · rcases ((direct_iff (cfg := cfg) hP hm (hmem f hf)).mpr ⟨hg, hb⟩).2 with h | h
        · exact Or.inl h
        · exact Or.inr (Or.inl h)
      · exact Or.inr (Or.inr ⟨j, hj, (C51_reachable_partial cfg hI hR hP j).mpr hr⟩)
    rw [this]
    simp [visible_iff.mpr hg]

/-- The generated code is consistent: a struct declares `'a` iff the text of one of its members uses it (rustc rejects both
an unused and an undeclared lifetime parameter), and the same holds for the enum of a oneof. References to a struct in other
types carry `<'a>` iff the struct declares it. -/
theorem C51_consistent_partial {D : FileDescriptor} {cfg : Config} (hc : cfg.dontUseCow = false) (hI : IndexOk D)
    (hR : RefsOk D) (hP : PackedSane D) (hB : BoxedSane D) {i : MessageIndex} {m : Message} (hm : D.getMessage i = some m) :
    (∃ b, structDeclares D cfg i = some b ∧ memberMentions D cfg m = some b ∧
      FieldType.rustType D cfg (.message i) = some (.struct_ i b)) ∧
    (∀ o ∈ m.oneofs, (∀ f ∈ o.fields, f.frequency.isRepeated = false) →
      ∃ b, o.hasLifetime D cfg = some b ∧ variantMentions D cfg o = some b) := by
  have hvis : ∀ f, f.visible cfg = true ↔ Generated cfg f := fun f => visible_iff
  constructor
  · obtain ⟨b, hb⟩ := Option.isSome_iff_exists.mp (C51_terminates cfg hI hR [] (i := i) (by rw [hm]; rfl))
    have hst : structDeclares D cfg i = some b := by
      unfold structDeclares; rw [hc]; exact hb
    refine ⟨b, hst, ?_, by simp [FieldType.rustType, hb]⟩
    have hbi := C51_struct_partial hc hI hR hP i
    rw [hst, Option.some.injEq, borrows_iff hm] at hbi
    have hfs : ∀ f ∈ m.fields, ∃ r, f.getType D cfg = some r ∧ (r.mentions = true ↔ FieldBorrows D cfg f) :=
      fun f hf => getType_iff hc hI hR hP hB hm (by simp [Message.allFields, hf])
    have hs1 : ∀ f ∈ m.fields, (if f.visible cfg then (f.getType D cfg).map RustType.mentions else some false).isSome := by
      intro f hf
      obtain ⟨r, h1, _⟩ := hfs f hf
      rw [h1]
      split <;> rfl
    have hs2 : ∀ o ∈ m.oneofs, (o.hasLifetime D cfg).isSome := by
      intro o ho
      obtain ⟨b, h, _⟩ := oneof_iff (cfg := cfg) hI hR hP hm ho
      rw [h]; rfl
    have h1 := anyM_iff hs1
    have h2 := anyM_iff hs2
    have e1 : (∃ f ∈ m.fields, (if f.visible cfg then (f.getType D cfg).map RustType.mentions else some false) = some true) ↔
        ∃ f ∈ m.fields, Generated cfg f ∧ FieldBorrows D cfg f := by
      constructor
      · rintro ⟨f, hf, h⟩
        obtain ⟨r, h3, h4⟩ := hfs f hf
        rw [h3] at h
        split at h
        · rename_i hv
          simp only [Option.map_some, Option.some.injEq] at h
          exact ⟨f, hf, (hvis f).mp hv, h4.mp h⟩
        · cases h
      · rintro ⟨f, hf, hg, hb⟩
        obtain ⟨r, h3, h4⟩ := hfs f hf
        exact ⟨f, hf, by rw [if_pos ((hvis f).mpr hg), h3, Option.map_some, h4.mpr hb]⟩
    have e2 : (∃ o ∈ m.oneofs, o.hasLifetime D cfg = some true) ↔
        ∃ o ∈ m.oneofs, ∃ f ∈ o.fields, Generated cfg f ∧ FieldBorrows D cfg f := by
      constructor
      · rintro ⟨o, ho, h⟩
        obtain ⟨b, h3, h4⟩ := oneof_iff (cfg := cfg) hI hR hP hm ho
        rw [h3, Option.some.injEq] at h
        exact ⟨o, ho, h4.mp h⟩
      · rintro ⟨o, ho, h⟩
        obtain ⟨b, h3, h4⟩ := oneof_iff (cfg := cfg) hI hR hP hm ho
        exact ⟨o, ho, by rw [h3, h4.mpr h]⟩
    have e : b = true ↔ (∃ f ∈ m.fields, Generated cfg f ∧ FieldBorrows D cfg f) ∨
        ∃ o ∈ m.oneofs, ∃ f ∈ o.fields, Generated cfg f ∧ FieldBorrows D cfg f := by
      rw [hbi]
      simp only [Message.allFields, List.mem_append, List.mem_flatMap]
      constructor
      · rintro ⟨f, hf | ⟨o, ho, hf⟩, h⟩
        · exact Or.inl ⟨f, hf, h⟩
        · exact Or.inr ⟨o, ho, f, hf, h⟩
      · rintro (⟨f, hf, h⟩ | ⟨o, ho, f, hf, h⟩)
        · exact ⟨f, Or.inl hf, h⟩
        · exact ⟨f, Or.inr ⟨o, ho, hf⟩, h⟩
    obtain ⟨b1, hb1⟩ := Option.isSome_iff_exists.mp (anyM_isSome hs1)
    obtain ⟨b2, hb2⟩ := Option.isSome_iff_exists.mp (anyM_isSome hs2)
    rw [hb1, e1, Option.some.injEq] at h1
    rw [hb2, e2, Option.some.injEq] at h2
    unfold memberMentions
    rw [hb1]
    rw [← h1, ← h2] at e
    cases b1 with
    | true =>
      simp only
      rw [e.mpr (Or.inl rfl)]
    | false =>
      simp only [hb2, Option.some.injEq]
      cases b2 with
      | true => exact (e.mpr (Or.inr rfl)).symm
      | false =>
        cases b with
        | true => rcases e.mp rfl with h | h <;> cases h
        | false => rfl
  · intro o ho hrep
    obtain ⟨b, h1, h2⟩ := oneof_iff (cfg := cfg) hI hR hP hm ho
    refine ⟨b, h1, ?_⟩
    have hmem : ∀ f ∈ o.fields, f ∈ m.allFields := fun f hf => by
      simp only [Message.allFields, List.mem_append, List.mem_flatMap]
      exact Or.inr ⟨o, ho, hf⟩
    have hfs : ∀ f ∈ o.fields, ∃ r, f.variantType D cfg = some r ∧ (r.mentions = true ↔ FieldBorrows D cfg f) := by
      intro f hf
      obtain ⟨r, h3, h4⟩ := rustType_iff (cfg := cfg) hI hR hP (hR i m hm f (hmem f hf)).2 (hR i m hm f (hmem f hf)).1
      refine ⟨_, by rw [Field.variantType, h3]; rfl, ?_⟩
      have : (r.mentions = true ↔ FieldBorrows D cfg f) := by
        rw [h4]
        unfold FieldBorrows BorrowsItself
        constructor
        · rintro (h | h)
          · exact Or.inl (Or.inl h)
          · exact Or.inr h
        · rintro ((h | ⟨h, _⟩) | h)
          · exact Or.inl h
          · rw [hrep f hf] at h; cases h
          · exact Or.inr h
      split
      · simpa only [RustType.mentions] using this
      · exact this
    have hs : ∀ f ∈ o.fields, (if f.visible cfg then (f.variantType D cfg).map RustType.mentions else some false).isSome := by
      intro f hf
      obtain ⟨r, h1, _⟩ := hfs f hf
      rw [h1]
      split <;> rfl
    obtain ⟨b1, hb1⟩ := Option.isSome_iff_exists.mp (anyM_isSome hs)
    have h3 := anyM_iff hs
    rw [hb1, Option.some.injEq] at h3
    have : b1 = true ↔ b = true := by
      rw [h3, h2]
      constructor
      · rintro ⟨f, hf, h⟩
        obtain ⟨r, h3, h4⟩ := hfs f hf
        rw [h3] at h
        split at h
        · rename_i hv
          simp only [Option.map_some, Option.some.injEq] at h
          exact ⟨f, hf, (hvis f).mp hv, h4.mp h⟩
        · cases h
      · rintro ⟨f, hf, hg, hb⟩
        obtain ⟨r, h3, h4⟩ := hfs f hf
        exact ⟨f, hf, by rw [if_pos ((hvis f).mpr hg), h3, Option.map_some, h4.mpr hb]⟩
    unfold variantMentions
    rw [hb1]
    cases b1 <;> cases b <;> simp_all

/-! ## Where it fails -/

/-- `message A { repeated fixed32 xs = 1; } message B { A a = 1; }`, proto3 (`xs` is packed). -/
def noCowFile : FileDescriptor where
  syntax_ := .proto3
  messages := [
    { name := "A".toList, index := [0]
      fields := [{ name := "xs".toList, frequency := .p3repeated, typ := .fixed32, number := 1, packed := some true }] },
    { name := "B".toList, index := [1]
      fields := [{ name := "a".toList, frequency := .p3optional, typ := .message [0], number := 1 }] }]

/-- With `dont_use_cow` the struct `A` has no lifetime parameter, but `B` holds an `A<'a>`, in a struct that does not declare
`'a` either: the generated code does not compile. -/
theorem C51_refuted_dont_use_cow : ∃ cfg : Config, cfg.dontUseCow = true ∧
    structDeclares noCowFile cfg [0] = some false ∧ structDeclares noCowFile cfg [1] = some false ∧
    (noCowFile.getMessage [1]).bind (memberMentions noCowFile cfg) = some true ∧
    FieldType.rustType noCowFile cfg (.message [0]) = some (.struct_ [0] true) :=
  ⟨{ dontUseCow := true }, rfl, by decide +kernel, by decide +kernel, by decide +kernel, rfl⟩

/-- `message A { optional fixed32 x = 1 [packed = true]; }` -/
def packedFile : FileDescriptor where
  messages := [
    { name := "A".toList, index := [0]
      fields := [{ name := "x".toList, frequency := .p2optional, typ := .fixed32, number := 1, packed := some true }] }]

/-- With `packed = true` on a field that is not repeated, the struct declares a lifetime parameter it does not use: the
generated code does not compile. -/
theorem C51_refuted_packed : ∃ cfg : Config, cfg.dontUseCow = false ∧ structDeclares packedFile cfg [0] = some true ∧
    (packedFile.getMessage [0]).bind (memberMentions packedFile cfg) = some false :=
  ⟨{}, rfl, by decide +kernel, by decide +kernel⟩

/-! ## The hypotheses are met -/

/-- A cyclic graph: `A` holds a `B` and a deprecated string, `B` holds an `A` and a map to `C`, `C` has a packed field. -/
def cyclicFile : FileDescriptor where
  messages := [
    { name := "A".toList, index := [0]
      fields := [{ name := "b".toList, frequency := .p2optional, typ := .message [1], number := 1, boxed := true },
        { name := "s".toList, frequency := .p2optional, typ := .stringCow, number := 2, deprecated := true }] },
    { name := "B".toList, index := [1]
      fields := [{ name := "a".toList, frequency := .p2optional, typ := .message [0], number := 1, boxed := true },
        { name := "m".toList, frequency := .p2map, typ := .map .int32 (.message [2]), number := 2 }] },
    { name := "C".toList, index := [2]
      fields := [{ name := "d".toList, frequency := .p2repeated, typ := .double, number := 1, packed := some true }] },
    { name := "D".toList, index := [3]
      fields := [{ name := "d".toList, frequency := .p2optional, typ := .message [3], number := 1, boxed := true }] }]

theorem cyclic_get {i : MessageIndex} {m : Message} (h : cyclicFile.getMessage i = some m) :
    (i = [0] ∨ i = [1] ∨ i = [2] ∨ i = [3]) ∧ cyclicFile.getMessage i = some m := by
  refine ⟨?_, h⟩
  cases i with
  | nil => cases h
  | cons a l =>
    match a, h with
    | 0, h => cases l with
      | nil => simp
      | cons b l => simp [cyclicFile, FileDescriptor.getMessage, Message.descend] at h
    | 1, h => cases l with
      | nil => simp
      | cons b l => simp [cyclicFile, FileDescriptor.getMessage, Message.descend] at h
    | 2, h => cases l with
      | nil => simp
      | cons b l => simp [cyclicFile, FileDescriptor.getMessage, Message.descend] at h
    | 3, h => cases l with
      | nil => simp
      | cons b l => simp [cyclicFile, FileDescriptor.getMessage, Message.descend] at h
    | n + 4, h => simp [cyclicFile, FileDescriptor.getMessage] at h

example : IndexOk cyclicFile ∧ RefsOk cyclicFile ∧ PackedSane cyclicFile ∧ BoxedSane cyclicFile := by
  refine ⟨?_, ?_, ?_, ?_⟩
  · intro i m h
    obtain ⟨hi, h⟩ := cyclic_get h
    rcases hi with rfl | rfl | rfl | rfl <;> cases h <;> rfl
  · intro i m h f hf
    obtain ⟨hi, h⟩ := cyclic_get h
    rcases hi with rfl | rfl | rfl | rfl <;> cases h <;>
      simp only [Message.allFields, List.flatMap_nil, List.append_nil, List.mem_cons, List.not_mem_nil, or_false] at hf
    · rcases hf with rfl | rfl
      · exact ⟨(fun j hj => by cases hj; rfl), trivial⟩
      · exact ⟨(fun j hj => by cases hj), trivial⟩
    · rcases hf with rfl | rfl
      · exact ⟨(fun j hj => by cases hj; rfl), trivial⟩
      · refine ⟨fun j hj => ?_, trivial, trivial⟩
        cases hj with
        | key _ hj => cases hj
        | value _ hj => cases hj; rfl
    · subst hf; exact ⟨(fun j hj => by cases hj), trivial⟩
    · subst hf; exact ⟨(fun j hj => by cases hj; rfl), trivial⟩
  · intro i m h f hf hp
    obtain ⟨hi, h⟩ := cyclic_get h
    rcases hi with rfl | rfl | rfl | rfl <;> cases h <;>
      simp only [Message.allFields, List.flatMap_nil, List.append_nil, List.mem_cons, List.not_mem_nil, or_false] at hf
    · rcases hf with rfl | rfl <;> cases hp
    · rcases hf with rfl | rfl <;> cases hp
    · subst hf; simp [Frequency.isRepeated]
    · subst hf; cases hp
  · intro i m h f hf hb
    obtain ⟨hi, h⟩ := cyclic_get h
    rcases hi with rfl | rfl | rfl | rfl <;> cases h <;>
      simp only [Message.allFields, List.flatMap_nil, List.append_nil, List.mem_cons, List.not_mem_nil, or_false] at hf
    · rcases hf with rfl | rfl
      · exact ⟨_, rfl⟩
      · cases hb
    · rcases hf with rfl | rfl
      · exact ⟨_, rfl⟩
      · cases hb
    · subst hf; cases hb
    · subst hf; exact ⟨_, rfl⟩

/-- `A` borrows, through `B` and `C`; `D` does not. -/
example : [[0], [1], [2], [3]].map (structDeclares cyclicFile {}) = [some true, some true, some true, some false] := by
  decide +kernel

end QP.Pbrs
