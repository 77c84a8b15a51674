import Verif.Proofs.Resolve
/-!
# Type names mean what the scoping rules say (C52)
-/

set_option linter.unusedVariables false

namespace QP.Pbrs

/-- When all names can be resolved, the message at each position is the message that was there, with its position noted and
the type of every field (in oneofs too, and inside map types) replaced by what that type means in the scope of that message;
nothing else changes. -/
theorem C52_resolves {D D' : FileDescriptor} (h : D.resolveTypes = .ok D') :
    ∃ H : MessageIndex → Field → Field,
      (∀ i, (D'.getMessage i).map (Message.ownFields id) = (D.getMessage i).map (fun m => (m.at i).ownFields (H i))) ∧
      (∀ i m, D.getMessage i = some m → ∀ f ∈ m.allFields,
        ∃ t, ResolvesTo D m f.typ t ∧ H i f = { f with typ := t }) ∧
      { D' with messages := [], enums := [] } = { D with messages := [], enums := [] } ∧
      D'.enums = D.enums.zipIdx.map (fun (e, k) => { e with index := ⟨[], k⟩ }) := by
  unfold FileDescriptor.resolveTypes at h
  split at h
  · cases h
  · rename_i ms hms
    cases h
    have key := resolveAll_ok D.fullNames _ _ hms
    refine ⟨fun i => match D.getMessage i with | some m => resolved D.fullNames m | none => id, ?_, ?_, rfl, rfl⟩
    · intro i
      have hg := getMessage_setIndexes D i
      cases i with
      | nil => rfl
      | cons j js =>
        have h1 := (key j js).1
        have e1 : FileDescriptor.getMessage { D.setIndexes with messages := ms } (j :: js) =
          ms[j]?.bind fun m => m.descend js := rfl
        have e2 : D.setIndexes.getMessage (j :: js) = D.setIndexes.messages[j]?.bind fun m => m.descend js := rfl
        rw [e1, h1, ← e2]
        cases hd : D.getMessage (j :: js) with
        | none =>
          rw [hd] at hg
          simp only [Option.map_none, Option.map_eq_none_iff] at hg
          rw [hg]; rfl
        | some m =>
          rw [hd] at hg
          simp only [Option.map_some, Option.map_eq_some_iff] at hg
          obtain ⟨x, hx, hx2⟩ := hg
          rw [hx]
          simp only [Option.map_some, Option.some.injEq]
          rw [hd]
          exact ownFields_at hx2
    · intro i m hm f hf
      simp only [hm]
      have hg := getMessage_setIndexes D i
      rw [hm] at hg
      simp only [Option.map_some, Option.map_eq_some_iff] at hg
      obtain ⟨x, hx, hx2⟩ := hg
      cases i with
      | nil => cases hm
      | cons j js =>
        obtain ⟨t, ht⟩ := (key j js).2 x hx f (by rw [allFields_at hx2]; exact hf)
        rw [resolveTyp_at hx2] at ht
        exact ⟨t, resolveTyp_ok ht, by simp [resolved, ht]⟩

/-- The messages of the result know their positions. -/
theorem C52_positions {D D' : FileDescriptor} (h : D.resolveTypes = .ok D') : IndexOk D' := by
  obtain ⟨H, h1, _⟩ := C52_resolves h
  intro i m hm
  have := h1 i
  rw [hm] at this
  obtain ⟨x, hx, hx2⟩ := Option.map_eq_some_iff.mp this.symm
  have := congrArg Message.index hx2
  simpa [Message.ownFields, Message.at] using this.symm

/-- The compilation fails with `MessageOrEnumNotFound(n)` only if some message uses the undeclared name `n`… -/
theorem C52_error {D : FileDescriptor} {n : Str} (h : D.resolveTypes = .error n) :
    ∃ i m f, D.getMessage i = some m ∧ f ∈ m.allFields ∧ f.typ.uses n ∧ Undeclared D m n := by
  unfold FileDescriptor.resolveTypes at h
  split at h
  · rename_i hms
    cases h
    obtain ⟨j, js, x, h1, f, hf, h2⟩ := resolveAll_error D.fullNames n _ hms
    have hg := getMessage_setIndexes D (j :: js)
    have e2 : D.setIndexes.getMessage (j :: js) = some x := h1
    rw [e2] at hg
    obtain ⟨m, hm, hm2⟩ := Option.map_eq_some_iff.mp hg.symm
    rw [resolveTyp_at hm2.symm] at h2
    obtain ⟨h3, h4⟩ := resolveTyp_error h2
    exact ⟨j :: js, m, f, hm, by rw [← allFields_at hm2.symm]; exact hf, h3, h4⟩
  · cases h

/-- …and whenever some message uses an undeclared name. -/
theorem C52_undeclared {D : FileDescriptor} {i : MessageIndex} {m : Message} {f : Field} {n : Str}
    (hm : D.getMessage i = some m) (hf : f ∈ m.allFields) (hu : f.typ.uses n) (hn : Undeclared D m n) :
    ∃ n', D.resolveTypes = .error n' := by
  cases h : D.resolveTypes with
  | error n' => exact ⟨n', rfl⟩
  | ok D' =>
    exfalso
    obtain ⟨H, _, h2, _⟩ := C52_resolves h
    obtain ⟨t, ht, _⟩ := h2 i m hm f hf
    rcases hu with hu | ⟨k, v, hu, hkv⟩
    · rw [hu] at ht
      exact Means.not_undeclared ht hn
    · rw [hu] at ht
      obtain ⟨k', v', _, hk, hv⟩ := ht
      rcases hkv with rfl | rfl
      · exact Means.not_undeclared hk hn
      · exact Means.not_undeclared hv hn

/-- If no two declarations have the same full name, a name means at most one thing. -/
theorem C52_unambiguous {D : FileDescriptor} (hu : ∀ c t t', Declares D c t → Declares D c t' → t = t') {m : Message}
    {n : Str} {t t' : FieldType} (h : Means D m n t) (h' : Means D m n t') : t = t' := by
  obtain ⟨x, c, y, h1, h2, h3⟩ := h
  obtain ⟨x', c', y', h1', h2', h3'⟩ := h'
  rw [h1] at h1'
  rcases List.append_eq_append_iff.mp h1' with ⟨z, e1, e2⟩ | ⟨z, e1, e2⟩
  · cases z with
    | nil =>
      simp only [List.nil_append, List.cons.injEq] at e2
      rw [← e2.1] at h2'
      exact hu c t t' h2 h2'
    | cons z zs =>
      simp only [List.cons_append, List.cons.injEq] at e2
      exact (h3' c (by rw [e1, e2.1]; simp) t h2).elim
  · cases z with
    | nil =>
      simp only [List.nil_append, List.cons.injEq] at e2
      rw [e2.1] at h2'
      exact hu c t t' h2 h2'
    | cons z zs =>
      simp only [List.cons_append, List.cons.injEq] at e2
      exact (h3 c' (by rw [e1, e2.1]; simp) t' h2').elim

/-- The full name of a message is the path from the root: the segments of the file's package, the names of the enclosing
messages, its own name. -/
theorem C52_full_name {D : FileDescriptor} (hp : ∀ i m, D.getMessage i = some m → m.package = [] ∧ m.name ≠ [])
    {i : MessageIndex} {m : Message} (hm : D.setPackages.getMessage i = some m) :
    m.fullName = joinDot ((if D.package.isEmpty then [] else splitDot D.package) ++ namesAlong D.messages i) ∧
    scopePath m = (if D.package.isEmpty then [] else splitDot D.package) ++
      ((namesAlong D.messages i).dropLast.flatMap splitDot ++ [m.name]) := by
  cases i with
  | nil => cases hm
  | cons j js =>
    exact fullName_setPackageAll D.package D.module D.messages j js (fun j js x hx => hp (j :: js) x hx) m hm

/-- The full name of an enum declared in a message is the full name of the message and its own name. -/
theorem C52_enum_name {D : FileDescriptor} (hp : ∀ i m, D.getMessage i = some m → m.package = [] ∧ m.name ≠ [])
    {i : MessageIndex} {m : Message} (hm : D.setPackages.getMessage i = some m) {e : Enumerator} (he : e ∈ m.enums) :
    e.nestedName = m.fullName ++ '.' :: e.name := by
  cases i with
  | nil => cases hm
  | cons j js =>
    obtain ⟨y, p, q, h1, h2⟩ := descend_setPackageAll js _ _ _ _ _ hm
    obtain ⟨h3, _⟩ := hp (j :: js) y h1
    obtain ⟨name, fields, oneofs, nums, names, imported, pkg, messages, enums, module', index⟩ := y
    simp only at h3
    subst h3
    subst h2
    simp only [Message.setPackage, List.mem_map] at he
    obtain ⟨e', _, rfl⟩ := he
    simp only [Enumerator.nestedName, Message.fullName, Message.setPackage, dotted]
    cases p with
    | nil => rfl
    | cons c cs => rfl

namespace ResolveExample

/-- `package a.b; message M { Inner f = 1; .Inner g = 2; map<string, E> h = 3; oneof o { b.T t = 4; }
message Inner { Inner self = 1; E e = 2; enum E {..} } } message T {} enum E {..}` -/
def file : FileDescriptor where
  package := "a.b".toList
  module := "a.b".toList
  messages := [
    { name := "M".toList
      fields := [
        { name := "f".toList, frequency := .p3default, typ := .messageOrEnum "Inner".toList, number := 1 },
        { name := "g".toList, frequency := .p3default, typ := .messageOrEnum ".a.b.T".toList, number := 2 },
        { name := "h".toList, frequency := .p3map, typ := .map .stringCow (.messageOrEnum "E".toList), number := 3 }]
      oneofs := [{ name := "o".toList, fields := [
        { name := "t".toList, frequency := .p3optional, typ := .messageOrEnum "b.T".toList, number := 4 }] }]
      messages := [
        { name := "Inner".toList
          fields := [
            { name := "self".toList, frequency := .p3default, typ := .messageOrEnum "Inner".toList, number := 1 },
            { name := "e".toList, frequency := .p3default, typ := .messageOrEnum "E".toList, number := 2 }]
          enums := [{ name := "E".toList, fields := [("A".toList, 0)] }] }] },
    { name := "T".toList, fields := [] }]
  enums := [{ name := "E".toList, fields := [("A".toList, 0)] }]

/-- The hypotheses of the theorems are met: names resolve, to the innermost declaration (`E` means the enum of the file in
`M`, the enum of `Inner` in `Inner`). -/
example : (match file.setPackages.resolveTypes with
    | .ok D => D.messages.map (fun m => (m.index, m.allFields.map (·.typ), m.messages.map (fun n => (n.index, n.fields.map (·.typ)))))
    | .error _ => []) =
    [([0], [.message [0, 0], .message [1], .map .stringCow (.enum ⟨[], 0⟩), .message [1]],
        [([0, 0], [.message [0, 0], .enum ⟨[0, 0], 0⟩])]),
     ([1], [], [])] := by decide +kernel

/-- The full name of `Inner`, and the candidates for a name used in it. -/
example : ((file.setPackages.getMessage [0, 0]).map Message.fullName) = some "a.b.M.Inner".toList := by decide +kernel

example : ((file.setPackages.getMessage [0, 0]).map (candidates · "X".toList)) =
    some ["a.b.M.Inner.X".toList, "a.b.M.X".toList, "a.b.X".toList, "a.X".toList, "X".toList] := by decide +kernel

/-- An undeclared name is an error. -/
example : (match FileDescriptor.resolveTypes { file.setPackages with enums := [] } with
    | .ok _ => none
    | .error n => some n) = some "E".toList := by decide +kernel

end ResolveExample

end QP.Pbrs
