import Verif.Spec.Added
import Verif.Proofs.AddEmit
import Verif.Proofs.Ready
import Verif.Proofs.Imports
set_option linter.unusedVariables false
/-!
# What compiles still compiles, to the same, when enums are added that no field names
-/

namespace QP.Pbrs

variable {D : FileDescriptor} {E : List Enumerator}

theorem getMessage_add : (D.addEnums E).getMessage = D.getMessage := by
  funext i
  cases i <;> rfl

/-! ## Names -/

theorem takeWhile_dot {l r : Str} : (l ++ '.' :: r).takeWhile (· ≠ '.') = l.takeWhile (· ≠ '.') := by
  induction l with
  | nil => rfl
  | cons c l ih =>
    by_cases h : c = '.'
    · subst h; rfl
    · rw [List.cons_append, List.takeWhile_cons_of_pos (by simpa using h), List.takeWhile_cons_of_pos (by simpa using h), ih]

theorem lastName_dotted (a b : Str) : lastName (dotted a b) = lastName b := by
  unfold lastName dotted
  rw [List.reverse_append, List.reverse_cons, List.append_assoc]
  exact congrArg List.reverse takeWhile_dot

theorem lastName_dot (b : Str) : lastName ('.' :: b) = lastName b := lastName_dotted [] b

theorem lastName_plain {n : Str} (h : '.' ∉ n) : lastName n = n := by
  unfold lastName
  have : n.reverse.takeWhile (· ≠ '.') = n.reverse := by
    have h' : '.' ∉ n.reverse := fun hm => h (List.mem_reverse.mp hm)
    revert h'
    generalize n.reverse = r
    intro h'
    induction r with
    | nil => rfl
    | cons c r ih =>
      have hc : c ≠ '.' := fun e => h' (e ▸ List.mem_cons_self ..)
      rw [List.takeWhile_cons_of_pos (by simpa using hc), ih (fun hm => h' (List.mem_cons_of_mem _ hm))]
  rw [this, List.reverse_reverse]

theorem lastName_test {m : Message} {name n : Str} (h : n ∈ testNames m name) : lastName n = lastName name := by
  unfold testNames at h
  split at h
  · rename_i hd
    rw [List.mem_singleton.mp h]
    cases name with
    | nil => cases hd
    | cons c r =>
      cases hd
      exact (lastName_dot r).symm
  · split at h
    · simp only [List.mem_cons, List.not_mem_nil, or_false] at h
      rcases h with rfl | rfl
      · exact lastName_dotted _ _
      · rfl
    · simp only [List.mem_append, List.mem_cons, List.not_mem_nil, or_false, List.mem_map] at h
      rcases h with ((rfl | rfl) | ⟨p, _, rfl⟩) | rfl
      · exact lastName_dotted _ _
      · exact lastName_dotted _ _
      · exact lastName_dotted _ _
      · rfl

theorem lastName_full {e : Enumerator} (h : '.' ∉ e.name) : lastName e.fullName = e.name := by
  unfold Enumerator.fullName
  split
  · exact lastName_plain h
  · rw [lastName_dotted, lastName_plain h]

theorem lookup_append' {l l' : List (Str × EnumIndex)} {n : Str} (h : ∀ p ∈ l', p.1 ≠ n) : (l ++ l').lookup n = l.lookup n := by
  induction l with
  | nil =>
    rw [List.nil_append]
    induction l' with
    | nil => rfl
    | cons p l' ih =>
      obtain ⟨a, b⟩ := p
      have : (n == a) = false := by
        have := h (a, b) (List.mem_cons_self ..)
        simpa using fun e => this e.symm
      rw [List.lookup_cons, this]
      exact ih fun p hp => h p (List.mem_cons_of_mem _ hp)
  | cons p l ih =>
    obtain ⟨a, b⟩ := p
    rw [List.cons_append, List.lookup_cons, List.lookup_cons, ih]

theorem zipIdx_of_mem {α : Type} {l : List α} {k : Nat} {a : α} {i : Nat} (h : (a, i) ∈ l.zipIdx k) : a ∈ l := by
  induction l generalizing k with
  | nil => cases h
  | cons x l ih =>
    rw [List.zipIdx_cons] at h
    rcases List.mem_cons.mp h with h | h
    · cases h; exact List.mem_cons_self ..
    · exact List.mem_cons_of_mem _ (ih h)

theorem find_add (hd : ∀ e ∈ E, '.' ∉ e.name) {n : Str} (h : ∀ e ∈ E, lastName n ≠ e.name) :
    (D.addEnums E).fullNames.find n = D.fullNames.find n := by
  unfold FullNames.find
  have e1 : (D.addEnums E).fullNames.msgs = D.fullNames.msgs := rfl
  have e2 : (D.addEnums E).fullNames.enums = D.fullNames.enums ++ (E.zipIdx D.enums.length).map (fun (e, i) => (e.fullName, (⟨[], i⟩ : EnumIndex))) := by
    unfold FileDescriptor.fullNames FileDescriptor.addEnums
    dsimp only
    rw [List.zipIdx_append, List.map_append, List.append_assoc, Nat.zero_add]
  rw [e1, e2, lookup_append']
  intro p hp he
  obtain ⟨⟨e, i⟩, hm, rfl⟩ := List.mem_map.mp hp
  have hm := zipIdx_of_mem hm
  dsimp only at he
  exact h e hm (by rw [← he, lastName_full (hd e hm)])

/-! ## Resolution -/

/-- The fields of a message and of those in it have types with `P`. -/
inductive TypesAll (P : FieldType → Prop) : Message → Prop where
  | mk {m : Message} : (∀ f ∈ m.allFields, P f.typ) → (∀ n ∈ m.messages, TypesAll P n) → TypesAll P m

/-- The names that the type mentions have `S`. -/
def NamesHave (S : Str → Prop) (t : FieldType) : Prop := ∀ n, t.uses n → S n

variable {N N' : FullNames} {S : Str → Prop}

theorem findSome_congr {α β : Type} {f g : α → Option β} : ∀ {l : List α}, (∀ a ∈ l, f a = g a) → l.findSome? f = l.findSome? g
  | [], _ => rfl
  | a :: l, h => by
    rw [List.findSome?_cons, List.findSome?_cons, h a (List.mem_cons_self ..), findSome_congr fun b hb => h b (List.mem_cons_of_mem _ hb)]

theorem resolveOne_congr (hN : ∀ m name, S name → ∀ n ∈ testNames m name, N'.find n = N.find n) {m : Message} {t : FieldType}
    (h : ∀ n, t = .messageOrEnum n → S n) : resolveOne N' m t = resolveOne N m t := by
  cases t with
  | messageOrEnum n =>
    unfold resolveOne
    dsimp only
    rw [findSome_congr (hN m n (h n rfl))]
  | _ => rfl

theorem resolveTyp_congr (hN : ∀ m name, S name → ∀ n ∈ testNames m name, N'.find n = N.find n) {m : Message} {t : FieldType}
    (h : NamesHave S t) : resolveTyp N' m t = resolveTyp N m t := by
  cases t with
  | map k v =>
    unfold resolveTyp
    dsimp only
    rw [resolveOne_congr hN (t := k) fun n e => h n (Or.inr ⟨k, v, rfl, Or.inl e⟩),
      resolveOne_congr hN (t := v) fun n e => h n (Or.inr ⟨k, v, rfl, Or.inr e⟩)]
  | _ => exact resolveOne_congr hN (m := m) fun n e => h n (Or.inl e)

theorem resolveFields_congr (hN : ∀ m name, S name → ∀ n ∈ testNames m name, N'.find n = N.find n) {m : Message} :
    ∀ {fs : List Field}, (∀ f ∈ fs, NamesHave S f.typ) → resolveFields N' m fs = resolveFields N m fs
  | [], _ => rfl
  | f :: fs, h => by
    unfold resolveFields
    rw [resolveTyp_congr hN (h f (List.mem_cons_self ..)), resolveFields_congr hN fun g hg => h g (List.mem_cons_of_mem _ hg)]

theorem resolveOneofs_congr (hN : ∀ m name, S name → ∀ n ∈ testNames m name, N'.find n = N.find n) {m : Message} :
    ∀ {os : List OneOf}, (∀ o ∈ os, ∀ f ∈ o.fields, NamesHave S f.typ) → resolveOneofs N' m os = resolveOneofs N m os
  | [], _ => rfl
  | o :: os, h => by
    unfold resolveOneofs
    rw [resolveFields_congr hN (h o (List.mem_cons_self ..)), resolveOneofs_congr hN fun g hg => h g (List.mem_cons_of_mem _ hg)]

mutual
theorem resolve_congr (hN : ∀ m name, S name → ∀ n ∈ testNames m name, N'.find n = N.find n) :
    ∀ (m : Message), TypesAll (NamesHave S) m → m.resolve N' = m.resolve N
  | ⟨name, fields, oneofs, nums, names, imported, pkg, messages, enums, module, index⟩, h => by
    cases h with
    | mk h1 h2 =>
    unfold Message.resolve
    dsimp only
    rw [resolveFields_congr hN fun f hf => h1 f (List.mem_append_left _ hf),
      resolveOneofs_congr hN fun o ho f hf => h1 f (List.mem_append_right _ (List.mem_flatMap.mpr ⟨o, ho, hf⟩)),
      resolveAll_congr hN messages h2]
theorem resolveAll_congr (hN : ∀ m name, S name → ∀ n ∈ testNames m name, N'.find n = N.find n) :
    ∀ (ms : List Message), (∀ m ∈ ms, TypesAll (NamesHave S) m) → Message.resolveAll N' ms = Message.resolveAll N ms
  | [], _ => rfl
  | m :: ms, h => by
    unfold Message.resolveAll
    rw [resolve_congr hN m (h m (List.mem_cons_self ..)), resolveAll_congr hN ms fun n hn => h n (List.mem_cons_of_mem _ hn)]
end

mutual
theorem typesAll_indexes {P : FieldType → Prop} : ∀ (m : Message) (i : MessageIndex), TypesAll P m → TypesAll P (m.setIndexes i)
  | ⟨name, fields, oneofs, nums, names, imported, pkg, messages, enums, module, index⟩, i, h => by
    cases h with
    | mk h1 h2 =>
    unfold Message.setIndexes
    exact .mk h1 (typesAll_indexesAll messages i 0 h2)
theorem typesAll_indexesAll {P : FieldType → Prop} : ∀ (ms : List Message) (i : MessageIndex) (k : Nat), (∀ m ∈ ms, TypesAll P m) →
    ∀ m ∈ Message.setIndexesAll i k ms, TypesAll P m
  | [], _, _, _ => fun m hm => by unfold Message.setIndexesAll at hm; cases hm
  | m :: ms, i, k, h => by
    unfold Message.setIndexesAll
    intro n hn
    rcases List.mem_cons.mp hn with rfl | hn
    · exact typesAll_indexes m _ (h m (List.mem_cons_self ..))
    · exact typesAll_indexesAll ms i (k + 1) (fun x hx => h x (List.mem_cons_of_mem _ hx)) n hn
end

theorem typesAll_of {P : FieldType → Prop} : ∀ (m : Message) (i : MessageIndex), D.getMessage i = some m →
    (∀ i m, D.getMessage i = some m → ∀ f ∈ m.allFields, P f.typ) → TypesAll P m
  | ⟨name, fields, oneofs, nums, names, imported, pkg, messages, enums, module, index⟩, i, h, hP =>
    .mk (hP i _ h) fun n hn => by
      obtain ⟨k, hk⟩ := List.getElem?_of_mem hn
      exact typesAll_of n (i ++ [k]) (by rw [QP.Pbrs.getMessage_append h]; simp only [Message.descend, hk]; rfl) hP

theorem typesAll_top {P : FieldType → Prop} (hP : ∀ i m, D.getMessage i = some m → ∀ f ∈ m.allFields, P f.typ) : ∀ m ∈ D.messages, TypesAll P m := by
  intro m hm
  obtain ⟨k, hk⟩ := List.getElem?_of_mem hm
  exact typesAll_of m [k] (by simp only [FileDescriptor.getMessage, hk]; rfl) hP

/-- The enums as they are after `setIndexes`. -/
def indexed (n : Nat) (E : List Enumerator) : List Enumerator := (E.zipIdx n).map (fun (e, i) => { e with index := ⟨[], i⟩ })

theorem resolve_add (hd : ∀ e ∈ E, '.' ∉ e.name) (hu : ∀ e ∈ E, Unnamed D e) {D1 : FileDescriptor} (h : D.resolveTypes = .ok D1) :
    (D.addEnums E).resolveTypes = .ok (D1.addEnums (indexed D.enums.length E)) := by
  have ht : ∀ m ∈ D.setIndexes.messages, TypesAll (NamesHave fun n => ∀ e ∈ E, lastName n ≠ e.name) m :=
    typesAll_indexesAll _ _ _ (typesAll_top fun i m hm f hf n hn e he => hu e he i m hm f hf n hn)
  have hr : Message.resolveAll (D.addEnums E).fullNames D.setIndexes.messages = Message.resolveAll D.fullNames D.setIndexes.messages :=
    resolveAll_congr (fun m name hS n hn => find_add hd fun e he => by rw [lastName_test hn]; exact hS e he) _ ht
  unfold FileDescriptor.resolveTypes at h ⊢
  have e1 : (D.addEnums E).setIndexes = D.setIndexes.addEnums (indexed D.enums.length E) := by
    unfold FileDescriptor.setIndexes FileDescriptor.addEnums indexed
    dsimp only
    rw [List.zipIdx_append, List.map_append, Nat.zero_add]
  rw [e1]
  have e2 : (D.setIndexes.addEnums (indexed D.enums.length E)).messages = D.setIndexes.messages := rfl
  rw [e2, hr]
  split at h
  · cases h
  · cases h
    rfl

/-! ## Cycles -/

theorem flatten_add : ∀ (n : Nat) (l acc : List MessageIndex), flattenLoop (D.addEnums E) n l acc = flattenLoop D n l acc
  | n, [], acc => by cases n <;> rfl
  | 0, _ :: _, _ => rfl
  | n + 1, m :: ms, acc => by
    unfold flattenLoop
    rw [getMessage_add]
    cases D.getMessage m with
    | none => rfl
    | some x => exact flatten_add n _ _

theorem sccs_add : (D.addEnums E).sccs = D.sccs := by
  unfold FileDescriptor.sccs FileDescriptor.flattenMessages
  rw [flatten_add]
  have e : (D.addEnums E).messages = D.messages := rfl
  have e' : ∀ v, (D.addEnums E).adj v = D.adj v := by
    intro v
    funext u
    unfold FileDescriptor.adj
    rw [getMessage_add]
  rw [e]
  simp only [e']

theorem modify_add (i : MessageIndex) (g : Message → Message) : (D.addEnums E).modifyMessage i g = (D.modifyMessage i g).addEnums E := by
  cases i <;> rfl

theorem mapCycle_add (h : Field → Field) : ∀ (c : List MessageIndex) (D : FileDescriptor), mapCycle h c (D.addEnums E) = (mapCycle h c D).addEnums E
  | [], _ => rfl
  | i :: c, D => by
    unfold mapCycle
    rw [List.foldl_cons, List.foldl_cons, modify_add]
    exact mapCycle_add h c _

theorem isCycle_add (c : List MessageIndex) (D : FileDescriptor) : isCycle c (D.addEnums E) = isCycle c D := by
  unfold isCycle
  rw [getMessage_add]

theorem breakCycle_add {b : Bool} {c : List MessageIndex} {D D2 : FileDescriptor} (h : breakCycle b c D = .ok D2) :
    breakCycle b c (D.addEnums E) = .ok (D2.addEnums E) := by
  unfold breakCycle at h ⊢
  dsimp only at h ⊢
  rw [mapCycle_add, isCycle_add, mapCycle_add]
  split at h
  · rename_i hc
    rw [if_pos hc]
    split at h
    · cases h
    · rename_i hb
      rw [if_neg hb]
      cases h
      rfl
  · rename_i hc
    rw [if_neg hc]
    cases h
    rfl

theorem forEach_add {α : Type} {body : α → FileDescriptor → Except (List Str) FileDescriptor}
    (hb : ∀ x D D2, body x D = .ok D2 → body x (D.addEnums E) = .ok (D2.addEnums E)) :
    ∀ (l : List α) (D D2 : FileDescriptor), forEach body l D = .ok D2 → forEach body l (D.addEnums E) = .ok (D2.addEnums E)
  | [], D, D2, h => by cases h; rfl
  | x :: l, D, D2, h => by
    unfold forEach at h ⊢
    split at h
    · cases h
    · rename_i D1 h1
      rw [hb x D D1 h1]
      exact forEach_add hb l D1 D2 h

theorem breakCycles_add {b : Bool} {D2 : FileDescriptor} (h : D.breakCycles b = some (.ok D2)) : (D.addEnums E).breakCycles b = some (.ok (D2.addEnums E)) := by
  unfold FileDescriptor.breakCycles at h ⊢
  rw [sccs_add]
  obtain ⟨s, hs, h⟩ := Option.map_eq_some_iff.mp h
  rw [hs, Option.map_some]
  refine congrArg some (forEach_add (fun x D D2 h => forEach_add (fun i D D2 h => ?_) _ D D2 h) _ D D2 h)
  unfold breakVertex at h ⊢
  have : cyclesAt x i (D.addEnums E) = cyclesAt x i D := by
    unfold cyclesAt
    rw [getMessage_add]
  rw [this]
  exact forEach_add (fun k D D2 h => breakCycle_add h) _ D D2 h

/-! ## The other passes -/

theorem getEnum_add {e : EnumIndex} {en : Enumerator} (h : D.getEnum e = some en) : (D.addEnums E).getEnum e = some en := by
  unfold FileDescriptor.getEnum at h ⊢
  split at h
  · rename_i hi
    rw [if_pos hi]
    show (D.enums ++ E)[e.index]? = some en
    have hlt : e.index < D.enums.length := (List.getElem?_eq_some_iff.mp h).1
    rw [List.getElem?_append_left hlt]
    exact h
  · rename_i hi
    rw [if_neg hi, getMessage_add]
    exact h

theorem more_add : More D (D.addEnums E) := ⟨rfl, rfl, rfl, rfl, fun _ _ => getEnum_add⟩

theorem checkAll_ext {α : Type} {f g : α → Except CompileError Unit} (h : ∀ a, f a = .ok () → g a = .ok ()) :
    ∀ l : List α, checkAll f l = .ok () → checkAll g l = .ok ()
  | [], _ => rfl
  | a :: l, hl => by
    unfold checkAll at hl ⊢
    split at hl
    · cases hl
    · rename_i u hu
      rw [h a (by rw [hu])]
      exact checkAll_ext h l hl

theorem sanity_add (h : D.sanityChecks = .ok ()) : (D.addEnums E).sanityChecks = .ok () := by
  unfold FileDescriptor.sanityChecks at h ⊢
  refine checkAll_ext (fun m hm => ?_) _ h
  unfold Message.sanityChecks at hm ⊢
  refine checkAll_ext (fun f hf => ?_) _ hm
  unfold Field.sanityCheck at hf ⊢
  split at hf
  · cases hf
  · rename_i hr
    rw [if_neg hr]
    split at hf
    · rename_i var e h1 h2
      split at hf
      · cases hf
      · rename_i en he
        rw [getEnum_add he]
        exact hf
    · rfl

/-- The enums that the type mentions. -/
def FieldType.enumsIn : FieldType → List EnumIndex
  | .enum e => [e]
  | .map k v => k.enumsIn ++ v.enumsIn
  | _ => []

theorem typeText_known (cfg : Config) : ∀ t : FieldType, (∀ e ∈ t.enumsIn, (D.getEnum e).isSome = true) → t.typeText (D.addEnums E) cfg = t.typeText D cfg
  | .enum e, h => by
    unfold FieldType.typeText
    obtain ⟨en, he⟩ := Option.isSome_iff_exists.mp (h e (by simp [FieldType.enumsIn]))
    rw [he, getEnum_add he]
    simp only [Enumerator.getModules, (more_add (D := D) (E := E)).modules]
  | .message i, _ => by
    unfold FieldType.typeText
    rw [getMessage_add, more_add.hasLifetime]
    simp only [Message.getModules, (more_add (D := D) (E := E)).modules]
  | .map k v, h => by
    unfold FieldType.typeText
    rw [typeText_known cfg k fun e he => h e (List.mem_append_left _ he), typeText_known cfg v fun e he => h e (List.mem_append_right _ he)]
  | .int32, _ | .sint32, _ | .sfixed32, _ | .int64, _ | .sint64, _ | .sfixed64, _ | .uint32, _ | .fixed32, _ | .uint64, _ | .fixed64, _ | .double, _
  | .float, _ | .stringCow, _ | .bytesCow, _ | .string_, _ | .bytes_, _ | .bool, _ | .messageOrEnum _, _ => rfl

section Defaults
variable {p p' : FieldType → Str}

theorem sanitizeDefault_congr {f : Field} (h : p' f.typ = p f.typ) : f.sanitizeDefault p' = f.sanitizeDefault p := by
  unfold Field.sanitizeDefault
  cases f.default with
  | none => rfl
  | some d =>
    dsimp only
    have : sanitizeText p' f.typ d = sanitizeText p f.typ d := by
      cases ht : f.typ <;> rw [ht] at h <;> unfold sanitizeText <;> first | rfl | (dsimp only; rw [h])
    rw [this]

theorem mapM?_congr {α β : Type} {f g : α → Option β} : ∀ {l : List α}, (∀ a ∈ l, f a = g a) → mapM? f l = mapM? g l
  | [], _ => rfl
  | a :: l, h => by
    unfold mapM?
    rw [h a (List.mem_cons_self ..), mapM?_congr fun b hb => h b (List.mem_cons_of_mem _ hb)]

mutual
theorem sanitizeDefaults_congr : ∀ (m : Message), TypesAll (fun t => p' t = p t) m → m.sanitizeDefaults p' = m.sanitizeDefaults p
  | ⟨name, fields, oneofs, nums, names, imported, pkg, messages, enums, module, index⟩, h => by
    cases h with
    | mk h1 h2 =>
    unfold Message.sanitizeDefaults
    rw [mapM?_congr (f := Field.sanitizeDefault p') (g := Field.sanitizeDefault p) fun f hf => sanitizeDefault_congr (h1 f (List.mem_append_left _ hf)),
      mapM?_congr (f := OneOf.sanitizeDefaults p') (g := OneOf.sanitizeDefaults p) fun o ho => by
        unfold OneOf.sanitizeDefaults
        rw [mapM?_congr fun f hf => sanitizeDefault_congr (h1 f (List.mem_append_right _ (List.mem_flatMap.mpr ⟨o, ho, hf⟩)))],
      sanitizeDefaultsAll_congr messages h2]
theorem sanitizeDefaultsAll_congr : ∀ (ms : List Message), (∀ m ∈ ms, TypesAll (fun t => p' t = p t) m) →
    Message.sanitizeDefaultsAll p' ms = Message.sanitizeDefaultsAll p ms
  | [], _ => rfl
  | m :: ms, h => by
    unfold Message.sanitizeDefaultsAll
    rw [sanitizeDefaults_congr m (h m (List.mem_cons_self ..)), sanitizeDefaultsAll_congr ms fun n hn => h n (List.mem_cons_of_mem _ hn)]
end

theorem typesAll_map {P : FieldType → Prop} {g : Field → Field} (hg : ∀ f, (g f).typ = f.typ) {m : Message} (h : TypesAll P m) : TypesAll P (m.mapAllFields g) := by
  cases h with
  | mk h1 h2 =>
  refine .mk (fun f hf => ?_) h2
  have : ∃ f0 ∈ m.allFields, f = g f0 := by
    rcases List.mem_append.mp hf with hf | hf
    · obtain ⟨f0, h0, rfl⟩ := List.mem_map.mp hf
      exact ⟨f0, List.mem_append_left _ h0, rfl⟩
    · obtain ⟨o, ho, hf⟩ := List.mem_flatMap.mp hf
      obtain ⟨o0, h0, rfl⟩ := List.mem_map.mp ho
      obtain ⟨f0, hf0, rfl⟩ := List.mem_map.mp hf
      exact ⟨f0, List.mem_append_right _ (List.mem_flatMap.mpr ⟨o0, h0, hf0⟩), rfl⟩
  obtain ⟨f0, h0, rfl⟩ := this
  rw [hg]
  exact h1 f0 h0

theorem repeatedAsPacked_typ (f : Field) : f.repeatedAsPacked.typ = f.typ := by
  unfold Field.repeatedAsPacked
  split <;> rfl

theorem setDefaults_add (h : ∀ m ∈ D.messages, TypesAll (fun t => p' t = p t) m) {D4 : FileDescriptor} (hs : D.setDefaults p = some D4) :
    (D.addEnums E).setDefaults p' = some (D4.addEnums E) := by
  unfold FileDescriptor.setDefaults at hs ⊢
  dsimp only at hs ⊢
  have e1 : (D.addEnums E).messages = D.messages := rfl
  have e2 : (D.addEnums E).syntax_ = D.syntax_ := rfl
  rw [e1, e2, sanitizeDefaultsAll_congr (p' := p') (p := p)]
  · split at hs
    · cases hs
    · cases hs
      rfl
  · intro m hm
    split at hm
    · obtain ⟨m0, h0, rfl⟩ := List.mem_map.mp hm
      exact typesAll_map repeatedAsPacked_typ (h m0 h0)
    · exact h m hm

end Defaults

end QP.Pbrs
