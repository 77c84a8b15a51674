import Verif.Proofs.Imports
/-!
# Lemmas on the depth of imports
-/

set_option linter.unusedVariables false

namespace QP.Pbrs

theorem fetch_congr {fs : Files} {search : List Str} {read read' : Str → Except ReadError FileDescriptor} {file : Str} {imps : List Str} :
    ∀ {D : FileDescriptor}, (∀ imp ∈ imps, ∀ q, findImport fs search file imp = some q → read q ≠ .error .depth → read' q = read q) →
      fetchImports fs search read file imps D ≠ .error .depth →
      fetchImports fs search read' file imps D = fetchImports fs search read file imps D := by
  induction imps with
  | nil => intro D _ _; rfl
  | cons imp imps ih =>
    intro D hr hd
    simp only [fetchImports] at hd ⊢
    cases hq : findImport fs search file imp with
    | none => rfl
    | some q =>
      rw [hq] at hd
      have h1 : read q ≠ .error .depth := by
        intro h
        simp only [h] at hd
        exact hd rfl
      have h2 := hr imp (List.mem_cons_self) q hq h1
      simp only [h2] at hd ⊢
      cases hq2 : read q with
      | error e => rfl
      | ok f =>
        simp only [hq2] at hd ⊢
        exact ih (fun i hi => hr i (List.mem_cons_of_mem _ hi)) hd

theorem read_mono {fs : Files} {search : List Str} (n : Nat) : ∀ {p : Str}, readProtoFile fs search n p ≠ .error .depth →
    readProtoFile fs search (n + 1) p = readProtoFile fs search n p := by
  induction n with
  | zero => intro p h; exact absurd rfl h
  | succ n ih =>
    intro p h
    simp only [readProtoFile] at h
    rw [readProtoFile, readProtoFile]
    cases ht : fs p with
    | none => rfl
    | some text =>
      rw [ht] at h
      simp only at h ⊢
      cases hp : parseFile p text with
      | error e => rfl
      | ok Di =>
        obtain ⟨D, imps⟩ := Di
        rw [hp] at h
        simp only at h ⊢
        exact fetch_congr (fun i hi q hq hne => ih hne) h

theorem read_mono_le {fs : Files} {search : List Str} {n m : Nat} {p : Str} (hnm : n ≤ m) (h : readProtoFile fs search n p ≠ .error .depth) :
    readProtoFile fs search m p = readProtoFile fs search n p := by
  induction hnm with
  | refl => rfl
  | step _ ih => rw [read_mono _ (by rw [ih]; exact h), ih]

theorem fetch_deep {fs : Files} {search : List Str} {read : Str → Except ReadError FileDescriptor} {file : Str} {imps : List Str} {D : FileDescriptor}
    (hr : ∀ imp ∈ imps, ∀ q, findImport fs search file imp = some q → read q ≠ .error .depth) :
    fetchImports fs search read file imps D ≠ .error .depth := by
  intro h
  rcases fetch_error h with ⟨imp, _, _, h1⟩ | ⟨imp, hi, q, hq, h1⟩
  · cases h1
  · exact hr imp hi q hq h1

theorem parse_error {p text : Str} {e : ReadError} (h : parseFile p text = .error e) : e = .panic ∨ e = .syntax_ p := by
  unfold parseFile at h
  split at h
  · cases h; exact .inl rfl
  · cases h; exact .inr rfl
  · cases h

/-- Finitely many files are imported, so some depth suffices for all of them. -/
theorem common_depth {fs : Files} {search : List Str} {file : Str} (imps : List Str)
    (h : ∀ imp ∈ imps, ∀ q, findImport fs search file imp = some q → ∃ n, readProtoFile fs search n q ≠ .error .depth) :
    ∃ n, ∀ imp ∈ imps, ∀ q, findImport fs search file imp = some q → readProtoFile fs search n q ≠ .error .depth := by
  induction imps with
  | nil => exact ⟨0, fun i hi => by cases hi⟩
  | cons imp imps ih =>
    obtain ⟨n, hn⟩ := ih fun i hi => h i (List.mem_cons_of_mem _ hi)
    cases hq : findImport fs search file imp with
    | none =>
      refine ⟨n, fun i hi q hq' => ?_⟩
      rcases List.mem_cons.mp hi with rfl | hi
      · rw [hq] at hq'; cases hq'
      · exact hn i hi q hq'
    | some r =>
      obtain ⟨m, hm⟩ := h imp List.mem_cons_self r hq
      refine ⟨max n m, fun i hi q hq' => ?_⟩
      rcases List.mem_cons.mp hi with rfl | hi
      · rw [hq] at hq'; cases hq'
        rw [read_mono_le (Nat.le_max_right n m) hm]; exact hm
      · rw [read_mono_le (Nat.le_max_left n m) (hn i hi q hq')]; exact hn i hi q hq'

theorem read_acc {fs : Files} {search : List Str} {p : Str} (h : Acc (fun q p => Imports fs search p q) p) :
    ∃ n, readProtoFile fs search n p ≠ .error .depth := by
  induction h with
  | intro p _ ih =>
    cases ht : fs p with
    | none => exact ⟨1, by rw [readProtoFile, ht]; intro h; cases h⟩
    | some text =>
      cases hp : parseFile p text with
      | error e =>
        refine ⟨1, ?_⟩
        rw [readProtoFile, ht]
        simp only [hp]
        rcases parse_error hp with rfl | rfl <;> intro h <;> cases h
      | ok Di =>
        obtain ⟨D, imps⟩ := Di
        obtain ⟨n, hn⟩ := common_depth (fs := fs) (search := search) (file := p) imps fun imp hi q hq =>
          ih q ⟨D, imps, imp, ⟨text, ht, hp⟩, hi, findImport_iff.mp hq⟩
        refine ⟨n + 1, ?_⟩
        rw [readProtoFile, ht]
        simp only [hp]
        exact fetch_deep hn

theorem acc_of_read {fs : Files} {search : List Str} (n : Nat) : ∀ {p : Str} {D : FileDescriptor}, readProtoFile fs search n p = .ok D →
    Acc (fun q p => Imports fs search p q) p := by
  induction n with
  | zero => intro p D h; cases h
  | succ n ih =>
    intro p D h
    refine ⟨_, fun q hq => ?_⟩
    obtain ⟨E, hE⟩ := imports_read h hq
    exact ih hE

end QP.Pbrs
