import Verif.Spec.Scopes
import Verif.Spec.Schema
import Verif.Spec.Rewrite
import Verif.Props.Names
import Verif.Proofs.Sccs
/-!
# Name resolution
-/

set_option linter.unusedVariables false

namespace QP.Pbrs

/-! ## The maps of full names -/

mutual
theorem mem_preorder (idx : MessageIndex) (j : MessageIndex) (x : Message) : ∀ m : Message,
    (j, x) ∈ m.preorder idx ↔ ∃ js, j = idx ++ js ∧ m.descend js = some x
  | ⟨name, fields, oneofs, nums, names, imported, pkg, messages, enums, module, ix⟩ => by
    have ih := mem_preorderAll idx j x messages 0
    simp only [Message.preorder, List.mem_cons, Prod.mk.injEq, ih]
    constructor
    · rintro (⟨rfl, rfl⟩ | ⟨k, js, rfl, h⟩)
      · exact ⟨[], by simp, rfl⟩
      · exact ⟨k :: js, by simp, by simpa [Message.descend] using h⟩
    · rintro ⟨js, rfl, h⟩
      cases js with
      | nil =>
        simp only [Message.descend, Option.some.injEq] at h
        exact Or.inl ⟨by simp, h.symm⟩
      | cons k js => exact Or.inr ⟨k, js, by simp, by simpa [Message.descend] using h⟩
theorem mem_preorderAll (idx : MessageIndex) (j : MessageIndex) (x : Message) : ∀ (ms : List Message) (i : Nat),
    (j, x) ∈ Message.preorderAll idx i ms ↔
      ∃ k js, j = idx ++ (i + k) :: js ∧ (ms[k]?.bind fun m => m.descend js) = some x
  | [], i => by simp [Message.preorderAll]
  | m :: ms, i => by
    have ih1 := mem_preorder (idx ++ [i]) j x m
    have ih2 := mem_preorderAll idx j x ms (i + 1)
    simp only [Message.preorderAll, List.mem_append, ih1, ih2]
    constructor
    · rintro (⟨js, rfl, h⟩ | ⟨k, js, rfl, h⟩)
      · exact ⟨0, js, by simp, by simpa using h⟩
      · exact ⟨k + 1, js, by simp; omega, by simpa using h⟩
    · rintro ⟨k, js, rfl, h⟩
      cases k with
      | zero => exact Or.inl ⟨js, by simp, by simpa using h⟩
      | succ k => exact Or.inr ⟨k, js, by simp; omega, by simpa using h⟩
end

theorem mem_preorder_file (D : FileDescriptor) (j : MessageIndex) (x : Message) :
    (j, x) ∈ Message.preorderAll [] 0 D.messages ↔ D.getMessage j = some x := by
  rw [mem_preorderAll]
  constructor
  · rintro ⟨k, js, rfl, h⟩
    simpa [FileDescriptor.getMessage] using h
  · intro h
    cases j with
    | nil => cases h
    | cons k js => exact ⟨k, js, by simp, h⟩

theorem lookup_some {α β : Type} [BEq α] [LawfulBEq α] {l : List (α × β)} {a : α} {b : β} (h : l.lookup a = some b) :
    (a, b) ∈ l := by
  induction l with
  | nil => cases h
  | cons p l ih =>
    obtain ⟨x, y⟩ := p
    rw [List.lookup_cons] at h
    split at h
    · rename_i hx
      cases h
      simp [beq_iff_eq.mp hx]
    · simp [ih h]

theorem lookup_none {α β : Type} [BEq α] [LawfulBEq α] {l : List (α × β)} {a : α} (h : l.lookup a = none) (b : β) :
    (a, b) ∉ l := by
  induction l with
  | nil => simp
  | cons p l ih =>
    obtain ⟨x, y⟩ := p
    rw [List.lookup_cons] at h
    split at h
    · cases h
    · rename_i hx
      simp only [List.mem_cons, Prod.mk.injEq, not_or, not_and]
      exact ⟨fun e => by simp [e] at hx, ih h⟩

theorem mem_msgs (D : FileDescriptor) (n : Str) (i : MessageIndex) :
    (n, i) ∈ D.fullNames.msgs ↔ ∃ m, D.getMessage i = some m ∧ m.fullName = n := by
  simp only [FileDescriptor.fullNames, List.mem_map, Prod.mk.injEq, Prod.exists]
  constructor
  · rintro ⟨j, m, h, h1, rfl⟩
    exact ⟨m, (mem_preorder_file D j m).mp h, h1⟩
  · rintro ⟨m, h, h1⟩
    exact ⟨i, m, (mem_preorder_file D i m).mpr h, h1, rfl⟩

theorem mem_zipIdx {α : Type} {l : List α} {a : α} {i : Nat} : (a, i) ∈ l.zipIdx ↔ l[i]? = some a := by
  rw [List.mem_zipIdx_iff_getElem?]

theorem mem_enums (D : FileDescriptor) (n : Str) (e : EnumIndex) :
    (n, e) ∈ D.fullNames.enums ↔
      (∃ i m k en, D.getMessage i = some m ∧ m.enums[k]? = some en ∧ en.nestedName = n ∧ e = ⟨i, k⟩) ∨
      (∃ k en, D.enums[k]? = some en ∧ en.fullName = n ∧ e = ⟨[], k⟩) := by
  simp only [FileDescriptor.fullNames, List.mem_append, List.mem_flatMap, Prod.exists, enumEntries, List.mem_map,
    Prod.mk.injEq, mem_zipIdx]
  constructor
  · rintro (⟨i, m, h, en, k, h1, h2, rfl⟩ | ⟨en, k, h1, h2, rfl⟩)
    · exact Or.inl ⟨i, m, k, en, (mem_preorder_file D i m).mp h, h1, h2, rfl⟩
    · exact Or.inr ⟨k, en, h1, h2, rfl⟩
  · rintro (⟨i, m, k, en, h, h1, h2, rfl⟩ | ⟨k, en, h1, h2, rfl⟩)
    · exact Or.inl ⟨i, m, (mem_preorder_file D i m).mpr h, en, k, h1, h2, rfl⟩
    · exact Or.inr ⟨en, k, h1, h2, rfl⟩

theorem find_some {D : FileDescriptor} {n : Str} {t : FieldType} (h : D.fullNames.find n = some t) : Declares D n t := by
  unfold FullNames.find at h
  split at h
  · rename_i i hi
    cases h
    obtain ⟨m, h1, h2⟩ := (mem_msgs D n i).mp (lookup_some hi)
    exact .message i m h1 h2
  · obtain ⟨e, he, rfl⟩ := Option.map_eq_some_iff.mp h
    rcases (mem_enums D n e).mp (lookup_some he) with ⟨i, m, k, en, h1, h2, h3, rfl⟩ | ⟨k, en, h1, h2, rfl⟩
    · exact .nested i m k en h1 h2 h3
    · exact .top k en h1 h2

theorem find_none {D : FileDescriptor} {n : Str} (h : D.fullNames.find n = none) (t : FieldType) : ¬ Declares D n t := by
  unfold FullNames.find at h
  split at h
  · cases h
  · rename_i hm
    have he := Option.map_eq_none_iff.mp h
    intro hd
    cases hd with
    | message i m h1 h2 => exact lookup_none hm i ((mem_msgs D n i).mpr ⟨m, h1, h2⟩)
    | nested i m k e h1 h2 h3 => exact lookup_none he _ ((mem_enums D n _).mpr (Or.inl ⟨i, m, k, e, h1, h2, h3, rfl⟩))
    | top k e h1 h2 => exact lookup_none he _ ((mem_enums D n _).mpr (Or.inr ⟨k, e, h1, h2, rfl⟩))

/-! ## Candidates -/

theorem joinDot_append {a : List Str} (ha : a ≠ []) (s : Str) : joinDot (a ++ [s]) = joinDot a ++ '.' :: s := by
  induction a with
  | nil => exact (ha rfl).elim
  | cons x a ih =>
    cases a with
    | nil => rfl
    | cons y a =>
      rw [List.cons_append, joinDot_cons x (by simp), joinDot_cons x (by simp), ih (by simp)]
      simp

theorem dotPrefixes_eq (p : Str) :
    dotPrefixes p = (List.range ((splitDot p).length - 1)).map (fun k => joinDot ((splitDot p).take (k + 1))) := by
  induction p with
  | nil => rfl
  | cons c cs ih =>
    simp only [dotPrefixes, splitDot]
    split
    · rename_i hc
      have hne := splitDot_ne_nil cs
      cases hs : splitDot cs with
      | nil => exact (hne hs).elim
      | cons s ss =>
        rw [hs] at ih
        simp only [List.length_cons, Nat.add_sub_cancel] at ih ⊢
        rw [List.range_succ_eq_map, List.map_cons, List.map_map, ih, List.map_map]
        simp only [Nat.zero_add, List.take_succ_cons, List.take_zero, joinDot, List.cons.injEq, true_and]
        refine List.map_congr_left fun k _ => ?_
        simp only [Function.comp, List.take_succ_cons]
        rw [joinDot_cons [] (by simp), hc]
        rfl
    · rename_i hc
      cases hs : splitDot cs with
      | nil => exact (splitDot_ne_nil cs hs).elim
      | cons s ss =>
        rw [hs] at ih
        simp only [List.length_cons, Nat.add_sub_cancel] at ih ⊢
        rw [ih, List.map_map]
        refine List.map_congr_left fun k _ => ?_
        simp only [Function.comp, List.take_succ_cons]
        cases hh : List.take k ss with
        | nil => rfl
        | cons t ts => rfl

theorem candidates_rel (m : Message) {name : Str} (h : ¬ name.head? = some '.') :
    candidates m name = (scopes m).map (fun sc => joinDot (sc ++ [name])) := by
  unfold candidates
  split
  · simp at h
  · rfl

theorem testNames_eq (m : Message) (name : Str) : testNames m name = candidates m name := by
  unfold testNames
  split
  · rename_i h
    cases name with
    | nil => cases h
    | cons c cs =>
      simp only [List.head?_cons, Option.some.injEq] at h
      subst h
      rfl
  · rename_i h
    rw [candidates_rel m h]
    unfold scopes scopePath
    split
    · simp [List.range_succ, joinDot, dotted]
    · rename_i hp
      have hne := splitDot_ne_nil m.package
      have hlen : 0 < (splitDot m.package).length := List.length_pos_iff.mpr hne
      rw [dotPrefixes_eq]
      simp only [hp, Bool.false_eq_true, if_false, List.length_append, List.length_singleton]
      rw [← List.map_reverse, List.map_map, List.map_map]
      obtain ⟨n, hn⟩ : ∃ n, (splitDot m.package).length = n + 1 := ⟨_, (Nat.sub_add_cancel hlen).symm⟩
      rw [hn, List.range_succ, List.range_succ, List.range_succ_eq_map]
      simp only [List.reverse_append, List.reverse_cons, List.reverse_nil, List.nil_append, List.map_cons, List.map_append,
        List.map_nil, List.singleton_append, List.cons_append, List.take_zero, joinDot, List.append_assoc,
        Nat.add_sub_cancel]
      have e1 : (splitDot m.package ++ [m.name]).take (n + 2) = splitDot m.package ++ [m.name] := by
        rw [List.take_of_length_le]; simp [hn]
      have e2 : (splitDot m.package ++ [m.name]).take (n + 1) = splitDot m.package := by
        rw [← hn, List.take_left]
      rw [← List.map_reverse, List.map_map]
      simp only [Function.comp, e1, e2, dotted]
      rw [joinDot_append (by simp), joinDot_append hne, joinDot_append hne, joinDot_splitDot]
      refine congrArg (List.cons _) (congrArg (List.cons _) ?_)
      refine congrArg (· ++ [name]) ?_
      refine List.map_congr_left fun k hk => ?_
      have hk' : k < n := by simpa using hk
      show joinDot (List.take (k + 1) (splitDot m.package)) ++ '.' :: name =
        joinDot (List.take (k + 1) (splitDot m.package ++ [m.name]) ++ [name])
      rw [List.take_append_of_le_length (by omega), joinDot_append (by
        intro h0
        have := congrArg List.length h0
        simp [hn] at this)]

theorem findSome_split {α β : Type} {f : α → Option β} {l : List α} {b : β} (h : l.findSome? f = some b) :
    ∃ x a y, l = x ++ a :: y ∧ f a = some b ∧ ∀ c ∈ x, f c = none := by
  induction l with
  | nil => cases h
  | cons a l ih =>
    rw [List.findSome?_cons] at h
    split at h
    · rename_i v hv
      cases h
      exact ⟨[], a, l, rfl, hv, by simp⟩
    · rename_i hv
      obtain ⟨x, a', y, rfl, h1, h2⟩ := ih h
      exact ⟨a :: x, a', y, rfl, h1, by
        intro c hc
        rcases List.mem_cons.mp hc with rfl | hc
        · exact hv
        · exact h2 c hc⟩

theorem means_of_find {D : FileDescriptor} {m : Message} {name : Str} {t : FieldType}
    (h : (testNames m name).findSome? D.fullNames.find = some t) : Means D m name t := by
  obtain ⟨x, a, y, h1, h2, h3⟩ := findSome_split h
  exact ⟨x, a, y, by rw [← testNames_eq]; exact h1, find_some h2, fun c hc t' => find_none (h3 c hc) t'⟩

theorem undeclared_of_find {D : FileDescriptor} {m : Message} {name : Str}
    (h : (testNames m name).findSome? D.fullNames.find = none) : Undeclared D m name := by
  intro c hc t
  rw [← testNames_eq] at hc
  exact find_none (List.findSome?_eq_none_iff.mp h c hc) t

theorem Means.not_undeclared {D : FileDescriptor} {m : Message} {name : Str} {t : FieldType} (h : Means D m name t) :
    ¬ Undeclared D m name := by
  obtain ⟨x, c, y, h1, h2, _⟩ := h
  intro hu
  exact hu c (by rw [h1]; simp) t h2

theorem resolveOne_ok {D : FileDescriptor} {m : Message} {t t' : FieldType} (h : resolveOne D.fullNames m t = .ok t') :
    ResolvesOne D m t t' := by
  cases t with
  | messageOrEnum n =>
    simp only [resolveOne] at h
    split at h
    · rename_i x hx
      cases h
      exact means_of_find hx
    · cases h
  | _ => simp only [resolveOne, Except.ok.injEq] at h; exact h.symm

theorem resolveOne_error {D : FileDescriptor} {m : Message} {t : FieldType} {n : Str}
    (h : resolveOne D.fullNames m t = .error n) : t = .messageOrEnum n ∧ Undeclared D m n := by
  cases t with
  | messageOrEnum n' =>
    simp only [resolveOne] at h
    split at h
    · cases h
    · rename_i hx
      cases h
      exact ⟨rfl, undeclared_of_find hx⟩
  | _ => cases h

theorem resolveTyp_ok {D : FileDescriptor} {m : Message} {t t' : FieldType} (h : resolveTyp D.fullNames m t = .ok t') :
    ResolvesTo D m t t' := by
  cases t with
  | map k v =>
    simp only [resolveTyp] at h
    split at h
    · cases h
    · rename_i k' hk
      split at h
      · cases h
      · rename_i v' hv
        cases h
        exact ⟨k', v', rfl, resolveOne_ok hk, resolveOne_ok hv⟩
  | _ => simp only [resolveTyp] at h; exact resolveOne_ok h

theorem resolveTyp_error {D : FileDescriptor} {m : Message} {t : FieldType} {n : Str}
    (h : resolveTyp D.fullNames m t = .error n) : t.uses n ∧ Undeclared D m n := by
  cases t with
  | map k v =>
    simp only [resolveTyp] at h
    split at h
    · rename_i e he
      cases h
      obtain ⟨h1, h2⟩ := resolveOne_error he
      exact ⟨Or.inr ⟨k, v, rfl, Or.inl h1⟩, h2⟩
    · split at h
      · rename_i e he
        cases h
        obtain ⟨h1, h2⟩ := resolveOne_error he
        exact ⟨Or.inr ⟨k, v, rfl, Or.inr h1⟩, h2⟩
      · cases h
  | _ =>
    simp only [resolveTyp] at h
    obtain ⟨h1, h2⟩ := resolveOne_error h
    exact ⟨Or.inl h1, h2⟩

/-! ## The traversal -/

/-- The field with its type resolved (itself if it cannot be). -/
def resolved (N : FullNames) (m : Message) (f : Field) : Field :=
  match resolveTyp N m f.typ with
  | .ok t => { f with typ := t }
  | .error _ => f

theorem resolveFields_ok {N : FullNames} {m : Message} {fs fs' : List Field} (h : resolveFields N m fs = .ok fs') :
    fs' = fs.map (resolved N m) ∧ ∀ f ∈ fs, ∃ t, resolveTyp N m f.typ = .ok t := by
  induction fs generalizing fs' with
  | nil => cases h; exact ⟨rfl, by simp⟩
  | cons f fs ih =>
    simp only [resolveFields] at h
    split at h
    · cases h
    · rename_i t ht
      split at h
      · cases h
      · rename_i fs'' hfs
        cases h
        obtain ⟨h1, h2⟩ := ih hfs
        refine ⟨by simp [resolved, ht, h1], ?_⟩
        intro g hg
        rcases List.mem_cons.mp hg with rfl | hg
        · exact ⟨t, ht⟩
        · exact h2 g hg

theorem resolveFields_error {N : FullNames} {m : Message} {fs : List Field} {e : Str} (h : resolveFields N m fs = .error e) :
    ∃ f ∈ fs, resolveTyp N m f.typ = .error e := by
  induction fs with
  | nil => cases h
  | cons f fs ih =>
    simp only [resolveFields] at h
    split at h
    · rename_i e' he
      cases h
      exact ⟨f, by simp, he⟩
    · split at h
      · rename_i hfs
        cases h
        obtain ⟨g, h1, h2⟩ := ih hfs
        exact ⟨g, by simp [h1], h2⟩
      · cases h

theorem resolveOneofs_ok {N : FullNames} {m : Message} {os os' : List OneOf} (h : resolveOneofs N m os = .ok os') :
    os' = os.map (fun o => { o with fields := o.fields.map (resolved N m) }) ∧
      ∀ o ∈ os, ∀ f ∈ o.fields, ∃ t, resolveTyp N m f.typ = .ok t := by
  induction os generalizing os' with
  | nil => cases h; exact ⟨rfl, by simp⟩
  | cons o os ih =>
    simp only [resolveOneofs] at h
    split at h
    · cases h
    · rename_i fs hfs
      split at h
      · cases h
      · rename_i os'' hos
        cases h
        obtain ⟨h1, h2⟩ := ih hos
        obtain ⟨h3, h4⟩ := resolveFields_ok hfs
        refine ⟨by simp [h3, h1], ?_⟩
        intro p hp
        rcases List.mem_cons.mp hp with rfl | hp
        · exact h4
        · exact h2 p hp

theorem resolveOneofs_error {N : FullNames} {m : Message} {os : List OneOf} {e : Str} (h : resolveOneofs N m os = .error e) :
    ∃ o ∈ os, ∃ f ∈ o.fields, resolveTyp N m f.typ = .error e := by
  induction os with
  | nil => cases h
  | cons o os ih =>
    simp only [resolveOneofs] at h
    split at h
    · rename_i he
      cases h
      obtain ⟨f, h1, h2⟩ := resolveFields_error he
      exact ⟨o, by simp, f, h1, h2⟩
    · split at h
      · rename_i hfs
        cases h
        obtain ⟨g, h1, h2⟩ := ih hfs
        exact ⟨g, by simp [h1], h2⟩
      · cases h

mutual
theorem resolve_ok (N : FullNames) : ∀ (m m' : Message), m.resolve N = .ok m' → ∀ js,
    (m'.descend js).map (Message.ownFields id) = (m.descend js).map (fun x => Message.ownFields (resolved N x) x) ∧
      ∀ x, m.descend js = some x → ∀ f ∈ x.allFields, ∃ t, resolveTyp N x f.typ = .ok t
  | ⟨name, fields, oneofs, nums, names, imported, pkg, messages, enums, module, index⟩, m', h, js => by
    simp only [Message.resolve] at h
    split at h
    · cases h
    · rename_i fs hfs
      split at h
      · cases h
      · rename_i os hos
        split at h
        · cases h
        · rename_i ms hms
          cases h
          obtain ⟨h1, h2⟩ := resolveFields_ok hfs
          obtain ⟨h3, h4⟩ := resolveOneofs_ok hos
          cases js with
          | nil =>
            refine ⟨?_, ?_⟩
            · simp [Message.descend, Message.ownFields, h1, h3]
            · intro x hx f hf
              simp only [Message.descend, Option.some.injEq] at hx
              subst hx
              simp only [Message.allFields, List.mem_append, List.mem_flatMap] at hf
              rcases hf with hf | ⟨o, ho, hf⟩
              · exact h2 f hf
              · exact h4 o ho f hf
          | cons j js =>
            have ih := resolveAll_ok N messages ms hms j js
            simpa only [Message.descend] using ih
theorem resolveAll_ok (N : FullNames) : ∀ (ms ms' : List Message), Message.resolveAll N ms = .ok ms' → ∀ (j : Nat) (js),
    ((ms'[j]?.bind fun m => m.descend js).map (Message.ownFields id) =
        (ms[j]?.bind fun m => m.descend js).map (fun x => Message.ownFields (resolved N x) x)) ∧
      ∀ x, (ms[j]?.bind fun m => m.descend js) = some x → ∀ f ∈ x.allFields, ∃ t, resolveTyp N x f.typ = .ok t
  | [], ms', h, j, js => by
    cases h
    simp
  | m :: ms, ms', h, j, js => by
    simp only [Message.resolveAll] at h
    split at h
    · cases h
    · rename_i m1 hm1
      split at h
      · cases h
      · rename_i ms1 hms1
        cases h
        cases j with
        | zero => simpa using resolve_ok N m m1 hm1 js
        | succ j => simpa using resolveAll_ok N ms ms1 hms1 j js
end

mutual
theorem resolve_error (N : FullNames) (e : Str) : ∀ (m : Message), m.resolve N = .error e →
    ∃ js x, m.descend js = some x ∧ ∃ f ∈ x.allFields, resolveTyp N x f.typ = .error e
  | ⟨name, fields, oneofs, nums, names, imported, pkg, messages, enums, module, index⟩, h => by
    simp only [Message.resolve] at h
    split at h
    · rename_i hfs
      cases h
      obtain ⟨f, h1, h2⟩ := resolveFields_error hfs
      exact ⟨[], _, rfl, f, by simp [Message.allFields, h1], h2⟩
    · split at h
      · rename_i hos
        cases h
        obtain ⟨o, h1, f, h2, h3⟩ := resolveOneofs_error hos
        exact ⟨[], _, rfl, f, by simp only [Message.allFields, List.mem_append, List.mem_flatMap]; exact Or.inr ⟨o, h1, h2⟩, h3⟩
      · split at h
        · rename_i hms
          cases h
          obtain ⟨j, js, x, h1, h2⟩ := resolveAll_error N e messages hms
          exact ⟨j :: js, x, by simpa only [Message.descend] using h1, h2⟩
        · cases h
theorem resolveAll_error (N : FullNames) (e : Str) : ∀ (ms : List Message), Message.resolveAll N ms = .error e →
    ∃ (j : Nat) (js : List Nat) (x : Message), (ms[j]?.bind fun m => m.descend js) = some x ∧
      ∃ f ∈ x.allFields, resolveTyp N x f.typ = .error e
  | [], h => by cases h
  | m :: ms, h => by
    simp only [Message.resolveAll] at h
    split at h
    · rename_i hm
      cases h
      obtain ⟨js, x, h1, h2⟩ := resolve_error N e m hm
      exact ⟨0, js, x, by simpa using h1, h2⟩
    · split at h
      · rename_i hms
        cases h
        obtain ⟨j, js, x, h1, h2⟩ := resolveAll_error N e ms hms
        exact ⟨j + 1, js, x, by simpa using h1, h2⟩
      · cases h
end

/-! ## Indexes -/

mutual
theorem descend_setIndexes (p : MessageIndex) : ∀ (m : Message) (js : List Nat),
    ((m.setIndexes p).descend js).map (fun x => { x with messages := [] }) = (m.descend js).map (fun x => x.at (p ++ js))
  | ⟨name, fields, oneofs, nums, names, imported, pkg, messages, enums, module, index⟩, js => by
    cases js with
    | nil => simp [Message.setIndexes, Message.descend, Message.at]
    | cons j js =>
      have := descend_setIndexesAll p messages 0 j js
      simpa only [Message.setIndexes, Message.descend, Nat.zero_add] using this
theorem descend_setIndexesAll (p : MessageIndex) : ∀ (ms : List Message) (i j : Nat) (js : List Nat),
    (((Message.setIndexesAll p i ms)[j]?).bind fun m => m.descend js).map (fun x => { x with messages := [] }) =
      ((ms[j]?).bind fun m => m.descend js).map (fun x => x.at (p ++ (i + j) :: js))
  | [], i, j, js => by simp [Message.setIndexesAll]
  | m :: ms, i, j, js => by
    cases j with
    | zero =>
      have := descend_setIndexes (p ++ [i]) m js
      simpa [Message.setIndexesAll] using this
    | succ j =>
      have := descend_setIndexesAll p ms (i + 1) j js
      rw [show i + 1 + j = i + (j + 1) by omega] at this
      simpa [Message.setIndexesAll] using this
end

theorem getMessage_setIndexes (D : FileDescriptor) (i : MessageIndex) :
    (D.setIndexes.getMessage i).map (fun x => { x with messages := [] }) = (D.getMessage i).map (fun x => x.at i) := by
  cases i with
  | nil => rfl
  | cons j js =>
    have := descend_setIndexesAll [] D.messages 0 j js
    simpa only [FileDescriptor.getMessage, FileDescriptor.setIndexes, List.nil_append, Nat.zero_add] using this

theorem testNames_at {x m : Message} {i : MessageIndex} (h : ({ x with messages := [] } : Message) = m.at i) (n : Str) :
    testNames x n = testNames m n := by
  have h1 : x.package = m.package := by have := congrArg Message.package h; simpa [Message.at] using this
  have h2 : x.name = m.name := by have := congrArg Message.name h; simpa [Message.at] using this
  unfold testNames
  rw [h1, h2]

theorem resolveOne_at {x m : Message} {i : MessageIndex} {N : FullNames} (h : ({ x with messages := [] } : Message) = m.at i)
    (t : FieldType) : resolveOne N x t = resolveOne N m t := by
  cases t <;> simp only [resolveOne, testNames_at h]

theorem resolveTyp_at {x m : Message} {i : MessageIndex} {N : FullNames} (h : ({ x with messages := [] } : Message) = m.at i)
    {t : FieldType} : resolveTyp N x t = resolveTyp N m t := by
  cases t <;> simp only [resolveTyp, resolveOne_at h]

theorem allFields_at {x m : Message} {i : MessageIndex} (h : ({ x with messages := [] } : Message) = m.at i) :
    x.allFields = m.allFields := by
  have h1 : x.fields = m.fields := by have := congrArg Message.fields h; simpa [Message.at] using this
  have h2 : x.oneofs = m.oneofs := by have := congrArg Message.oneofs h; simpa [Message.at] using this
  unfold Message.allFields
  rw [h1, h2]

theorem ownFields_at {x m : Message} {i : MessageIndex} {N : FullNames} (h : ({ x with messages := [] } : Message) = m.at i) :
    Message.ownFields (resolved N x) x = (m.at i).ownFields (resolved N m) := by
  have e : resolved N x = resolved N m := by
    funext f
    unfold resolved
    rw [resolveTyp_at h]
  rw [e, ← h]
  rfl

/-! ## Packages -/

theorem splitDot_dotted (a b : Str) : splitDot (a ++ '.' :: b) = splitDot a ++ splitDot b := by
  induction a with
  | nil => simp [splitDot]
  | cons c a ih =>
    simp only [List.cons_append, splitDot, ih]
    split
    · rfl
    · cases hs : splitDot a with
      | nil => exact (splitDot_ne_nil a hs).elim
      | cons s ss => rfl

/-- The segments of a package. -/
theorem child_segments (package name : Str) (hn : name ≠ []) :
    (if (if package.isEmpty then name else dotted package name).isEmpty then []
      else splitDot (if package.isEmpty then name else dotted package name)) =
    (if package.isEmpty then [] else splitDot package) ++ splitDot name := by
  cases package with
  | nil =>
    cases name with
    | nil => exact (hn rfl).elim
    | cons c cs => simp
  | cons c cs =>
    have e : (if (c :: cs : Str).isEmpty then name else dotted (c :: cs) name) = dotted (c :: cs) name := rfl
    rw [e, if_neg (fun h => by cases h), if_neg (by simp)]
    exact splitDot_dotted _ _

theorem joinDot_append_cons {a : List Str} (ha : a ≠ []) (b : List Str) (hb : b ≠ []) :
    joinDot (a ++ b) = joinDot a ++ '.' :: joinDot b := by
  induction a with
  | nil => exact (ha rfl).elim
  | cons x a ih =>
    cases a with
    | nil => rw [List.singleton_append, joinDot_cons x hb]; rfl
    | cons y a =>
      rw [List.cons_append, joinDot_cons x (by simp), joinDot_cons x (by simp), ih (by simp)]
      simp

theorem setPackageAll_getElem (package module : Str) (ms : List Message) (j : Nat) :
    (Message.setPackageAll package module ms)[j]? = ms[j]?.map (Message.setPackage package module) := by
  induction ms generalizing j with
  | nil => simp [Message.setPackageAll]
  | cons m ms ih =>
    cases j with
    | zero => simp [Message.setPackageAll]
    | succ j => simpa [Message.setPackageAll] using ih j

theorem joinDot_segments (p : Str) (b : List Str) (hb : b ≠ []) (hp : p ≠ []) :
    joinDot (splitDot p ++ b) = p ++ '.' :: joinDot b := by
  rw [joinDot_append_cons (splitDot_ne_nil p) b hb, joinDot_splitDot]

theorem fullName_setPackageAll (package module : Str) (ms : List Message) (j : Nat) (js : List Nat)
    (hp : ∀ (j : Nat) (js : List Nat) (x : Message), (ms[j]?.bind fun m => m.descend js) = some x → x.package = [] ∧ x.name ≠ []) (m : Message)
    (hm : ((Message.setPackageAll package module ms)[j]?.bind fun m => m.descend js) = some m) :
    m.fullName = joinDot ((if package.isEmpty then [] else splitDot package) ++ namesAlong ms (j :: js)) ∧
    scopePath m = (if package.isEmpty then [] else splitDot package) ++
      ((namesAlong ms (j :: js)).dropLast.flatMap splitDot ++ [m.name]) := by
  induction js generalizing package module ms j with
  | nil =>
    rw [setPackageAll_getElem] at hm
    cases hj : ms[j]? with
    | none => rw [hj] at hm; cases hm
    | some x =>
      rw [hj] at hm
      obtain ⟨hx, hn⟩ := hp j [] x (by rw [hj]; rfl)
      obtain ⟨name, fields, oneofs, nums, names, imported, pkg, messages, enums, module', index⟩ := x
      simp only [Option.map_some, Message.setPackage, Option.bind_some, Message.descend, Option.some.injEq] at hm
      subst hm
      simp only at hx
      subst hx
      simp only [Message.fullName, scopePath, namesAlong, hj]
      cases package with
      | nil => simp [joinDot]
      | cons c cs =>
        simp only [List.isEmpty_cons, Bool.false_eq_true, if_false, List.dropLast_singleton, List.flatMap_nil,
          List.nil_append, and_true]
        rw [joinDot_segments _ _ (by simp) (by simp)]
        rfl
  | cons k js ih =>
    rw [setPackageAll_getElem] at hm
    cases hj : ms[j]? with
    | none => rw [hj] at hm; cases hm
    | some x =>
      rw [hj] at hm
      obtain ⟨_, hn⟩ := hp j [] x (by rw [hj]; rfl)
      obtain ⟨name, fields, oneofs, nums, names, imported, pkg, messages, enums, module', index⟩ := x
      simp only [Option.map_some, Message.setPackage, Option.bind_some, Message.descend] at hm
      have hp' : ∀ (j : Nat) (js : List Nat) (x : Message), (messages[j]?.bind fun m => m.descend js) = some x → x.package = [] ∧ x.name ≠ [] := by
        intro j' js' x hx
        exact hp j (j' :: js') x (by rw [hj]; simpa [Message.descend] using hx)
      obtain ⟨h1, h2⟩ := ih _ _ messages k hp' hm
      rw [child_segments _ _ hn] at h1 h2
      have hne : namesAlong messages (k :: js) ≠ [] := by
        rw [setPackageAll_getElem] at hm
        cases hk : messages[k]? with
        | none => rw [hk] at hm; cases hm
        | some y => simp [namesAlong, hk]
      have e : namesAlong ms (j :: k :: js) = name :: namesAlong messages (k :: js) := by
        rw [namesAlong, hj]
      rw [e]
      refine ⟨?_, ?_⟩
      · rw [h1, List.append_assoc]
        cases package with
        | nil =>
          simp only [List.isEmpty_nil, if_true, List.nil_append]
          rw [joinDot_segments _ _ hne hn, joinDot_cons _ hne]
        | cons c cs =>
          simp only [List.isEmpty_cons, Bool.false_eq_true, if_false]
          rw [joinDot_segments _ _ (by simp [hne]) (by simp), joinDot_segments _ _ hne hn,
            joinDot_segments _ _ (by simp) (by simp), joinDot_cons _ hne]
      · rw [h2, List.dropLast_cons_of_ne_nil hne]
        simp [List.append_assoc]

theorem descend_setPackageAll (js : List Nat) : ∀ (package module : Str) (ms : List Message) (j : Nat) (x : Message),
    ((Message.setPackageAll package module ms)[j]?.bind fun m => m.descend js) = some x →
    ∃ y p q, (ms[j]?.bind fun m => m.descend js) = some y ∧ x = y.setPackage p q := by
  induction js with
  | nil =>
    intro package module ms j x h
    rw [setPackageAll_getElem] at h
    cases hj : ms[j]? with
    | none => rw [hj] at h; cases h
    | some y =>
      rw [hj] at h
      simp only [Option.map_some, Option.bind_some, Message.descend, Option.some.injEq] at h
      exact ⟨y, package, module, rfl, h.symm⟩
  | cons k js ih =>
    intro package module ms j x h
    rw [setPackageAll_getElem] at h
    cases hj : ms[j]? with
    | none => rw [hj] at h; cases h
    | some y =>
      rw [hj] at h
      obtain ⟨name, fields, oneofs, nums, names, imported, pkg, messages, enums, module', index⟩ := y
      simp only [Option.map_some, Message.setPackage, Option.bind_some, Message.descend] at h
      obtain ⟨y, p, q, h1, h2⟩ := ih _ _ messages k x h
      exact ⟨y, p, q, by simpa [Message.descend] using h1, h2⟩

end QP.Pbrs
