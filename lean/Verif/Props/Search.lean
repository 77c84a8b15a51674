import Verif.Spec.Search
import Verif.Props.Run
set_option linter.unusedVariables false
/-!
# C85: where imports are looked for
-/

namespace QP.Pbrs
open Parse

theorem splitSlashes_ne (p : Str) : splitSlashes p ≠ [] := by
  cases p with
  | nil => simp [splitSlashes]
  | cons c cs =>
    unfold splitSlashes
    split
    · simp
    · split <;> simp

theorem splitSlashes_append (a b : Str) : splitSlashes (a ++ '/' :: b) = splitSlashes a ++ splitSlashes b := by
  induction a with
  | nil => simp [splitSlashes]
  | cons c a ih =>
    simp only [List.cons_append, splitSlashes]
    rw [ih]
    split
    · rfl
    · cases h : splitSlashes a with
      | nil => exact absurd h (splitSlashes_ne a)
      | cons s ss => rfl

theorem parts_slash (a b : Str) : parts (a ++ '/' :: b) = parts a ++ parts b := by
  unfold parts
  rw [splitSlashes_append, List.filter_append]

theorem parts_nil : parts [] = [] := by decide

theorem parts_dir (x b : Str) (hx : x = [] ∨ ∃ y, x = y ++ ['/']) : parts (x ++ b) = parts x ++ parts b := by
  rcases hx with rfl | ⟨y, rfl⟩
  · rw [parts_nil]; rfl
  · rw [List.append_assoc]
    show parts (y ++ '/' :: b) = parts (y ++ '/' :: []) ++ parts b
    rw [parts_slash y b]
    rw [parts_slash, parts_nil, List.append_nil]

theorem splitSlashes_plain {p : Str} (h : '/' ∉ p) : splitSlashes p = [p] := by
  induction p with
  | nil => rfl
  | cons c cs ih =>
    have hc : c ≠ '/' := fun e => h (by simp [e])
    unfold splitSlashes
    rw [if_neg hc, ih (fun e => h (by simp [e]))]

theorem parts_name {p : Str} (h : '/' ∉ p) (h1 : p ≠ []) (h2 : p ≠ ['.']) : parts p = [p] := by
  unfold parts
  rw [splitSlashes_plain h]
  simp [h1, h2]

theorem splitSlash_dir (p : Str) : (splitSlash p).1 = [] ∨ ∃ y, (splitSlash p).1 = y ++ ['/'] := by
  unfold splitSlash
  simp only
  cases hd : p.reverse.dropWhile (fun x => decide (x ≠ '/')) with
  | nil => exact Or.inl rfl
  | cons c cs =>
    refine Or.inr ⟨cs.reverse, ?_⟩
    have := List.head_dropWhile_not (fun x => decide (x ≠ '/')) (l := p.reverse) (by rw [hd]; simp)
    simp only [hd, List.head_cons, decide_eq_false_iff_not, Decidable.not_not] at this
    rw [this]
    simp

theorem splitSlash_name (p : Str) : '/' ∉ (splitSlash p).2 := by
  unfold splitSlash
  simp only [List.mem_reverse]
  intro h
  have h1 : ∀ l : Str, '/' ∉ l.takeWhile (fun x => decide (x ≠ '/')) := by
    intro l
    induction l with
    | nil => simp
    | cons a l ih =>
      rw [List.takeWhile_cons]
      split
      · rename_i ha
        intro hm
        rcases List.mem_cons.mp hm with rfl | hm
        · simp at ha
        · exact ih hm
      · simp
  exact h1 _ h

theorem parts_split (p : Str) : parts p = parts (splitSlash p).1 ++ parts (splitSlash p).2 := by
  conv => lhs; rw [splitSlash_eq p]
  exact parts_dir _ _ (splitSlash_dir p)

theorem flatMap_parts (l : List Str) (h : ∀ c ∈ l, c ≠ [] ∧ c ≠ ['.'] ∧ '/' ∉ c) : parts (l.flatMap (· ++ ['/'])) = l := by
  induction l with
  | nil => exact parts_nil
  | cons a l ih =>
    obtain ⟨h1, h2, h3⟩ := h a (by simp)
    rw [List.flatMap_cons, List.append_assoc]
    show parts (a ++ '/' :: l.flatMap (· ++ ['/'])) = _
    rw [parts_slash, parts_name h3 h1 h2, ih fun c hc => h c (by simp [hc])]
    rfl

theorem splitSlashes_noslash (p : Str) : ∀ c ∈ splitSlashes p, '/' ∉ c := by
  induction p with
  | nil => simp [splitSlashes]
  | cons a p ih =>
    unfold splitSlashes
    intro c hc
    split at hc
    · rcases List.mem_cons.mp hc with rfl | hc
      · simp
      · exact ih c hc
    · rename_i ha
      split at hc
      · cases List.mem_singleton.mp hc
        simpa using fun e : '/' = a => ha e.symm
      · rename_i s ss hs
        rw [hs] at ih
        rcases List.mem_cons.mp hc with rfl | hc
        · intro h
          rcases List.mem_cons.mp h with h | h
          · exact ha h.symm
          · exact ih s (by simp) h
        · exact ih c (by simp [hc])

theorem parts_normDir (d : Str) : parts (normDir d) = parts d := by
  unfold normDir
  have h : parts (((splitSlashes d).filter fun c => c ≠ [] ∧ c ≠ ['.']).flatMap (· ++ ['/'])) = parts d := by
    refine flatMap_parts _ fun c hc => ?_
    obtain ⟨h1, h2⟩ := List.mem_filter.mp hc
    simp only [decide_eq_true_eq] at h2
    exact ⟨h2.1, h2.2, splitSlashes_noslash d c h1⟩
  split
  · rw [parts_dir ['/'] _ (.inr ⟨[], rfl⟩), h]; rfl
  · exact h

theorem parts_normPath (p : Str) : parts (normPath p) = parts p := by
  unfold normPath
  rw [parts_dir _ _ (normDir_split _), parts_normDir, ← parts_split]

theorem isAbsolute_append {a b : Str} (h : a ≠ []) : isAbsolute (a ++ b) = isAbsolute a := by
  cases a with
  | nil => exact absurd rfl h
  | cons => rfl

theorem abs_normPath {p : Str} : isAbsolute (normPath p) = isAbsolute p := by
  have hp := splitSlash_eq p
  unfold normPath
  cases hd : isAbsolute (splitSlash p).1 with
  | true =>
    have h0 : (splitSlash p).1 ≠ [] := by intro e; rw [e] at hd; cases hd
    have h1 : isAbsolute p = true := by rw [hp, isAbsolute_append h0]; exact hd
    rw [h1]
    unfold normDir
    rw [hd]
    rfl
  | false =>
    have h1 : isAbsolute p = false := by
      by_cases h0 : (splitSlash p).1 = []
      · rw [hp, h0, List.nil_append]
        exact relative (splitSlash_name p)
      · rw [hp, isAbsolute_append h0]; exact hd
    rw [h1]
    unfold normDir
    rw [hd]
    simp only [Bool.false_eq_true, if_false, List.nil_append]
    cases hl : (splitSlashes (splitSlash p).1).filter (fun c => c ≠ [] ∧ c ≠ ['.']) with
    | nil => exact relative (splitSlash_name p)
    | cons a l =>
      have ha : a ∈ (splitSlashes (splitSlash p).1).filter (fun c => c ≠ [] ∧ c ≠ ['.']) := by rw [hl]; simp
      obtain ⟨h2, h3⟩ := List.mem_filter.mp ha
      simp only [decide_eq_true_eq] at h3
      have h4 := splitSlashes_noslash _ a h2
      rw [List.flatMap_cons, List.append_assoc, List.append_assoc, isAbsolute_append h3.1]
      exact relative h4

theorem parts_join {a b : Str} (hb : isAbsolute b = false) : parts (joinPath a b) = parts a ++ parts b := by
  unfold joinPath
  rw [hb]
  simp only [Bool.false_eq_true, if_false]
  split
  · rename_i h; cases a with
    | nil => rw [parts_nil]; rfl
    | cons => cases h
  · split
    · rename_i h
      refine parts_dir a b (.inr ⟨a.dropLast, ?_⟩)
      have hne : a ≠ [] := by intro e; rw [e] at h; cases h
      have h2 := List.getLast?_eq_some_getLast hne
      rw [h] at h2
      have h3 := List.dropLast_concat_getLast hne
      rw [← Option.some.inj h2] at h3
      exact h3.symm
    · exact parts_slash a b

theorem abs_join {a b : Str} (hb : isAbsolute b = false) : isAbsolute (joinPath a b) = isAbsolute a := by
  unfold joinPath
  rw [hb]
  simp only [Bool.false_eq_true, if_false]
  split
  · rename_i h; cases a with
    | nil => exact hb
    | cons => cases h
  · rename_i h
    have h0 : a ≠ [] := by intro e; rw [e] at h; exact h rfl
    split <;> exact isAbsolute_append h0

theorem parent_parts {p : Str} (h : FilePath p) : parts (parentPath p) = (parts p).dropLast ∧ isAbsolute (parentPath p) = isAbsolute p := by
  have h1 : parts p = parts (splitSlash p).1 ++ [(splitSlash p).2] := by
    rw [parts_split, parts_name (splitSlash_name p) h.1 h.2]
  have hp := splitSlash_eq p
  rw [h1, List.dropLast_concat]
  unfold parentPath
  simp only
  rcases splitSlash_dir p with hd | ⟨y, hd⟩
  · rw [hd] at hp ⊢
    refine ⟨rfl, ?_⟩
    rw [hp]
    exact (relative (splitSlash_name p)).symm
  · rw [hd] at hp ⊢
    split
    · rename_i hy
      rw [hy] at hp ⊢
      exact ⟨rfl, by rw [hp]; rfl⟩
    · rename_i hy
      have hl : (y ++ ['/']).getLast? = some '/' := by simp
      rw [if_pos hl, List.dropLast_concat]
      refine ⟨?_, ?_⟩
      · show _ = parts (y ++ '/' :: [])
        rw [parts_slash, parts_nil, List.append_nil]
      · have hy0 : y ≠ [] := by intro e; rw [e] at hy; exact hy rfl
        rw [hp, List.append_assoc, isAbsolute_append hy0]

/-- Where an import is looked for: in an absolute directory of the include path, or in one that is relative to the directory of the
importing file. -/
theorem C85_place {file imp : Str} (dir : Str) (hf : FilePath file) (hi : isAbsolute imp = false) :
    Place file dir imp (candidate file imp dir) := by
  unfold candidate Place
  split
  · exact ⟨by rw [abs_normPath, abs_join hi], by rw [parts_normPath, parts_join hi]⟩
  · rename_i h
    replace h : isAbsolute dir = false := by simpa using h
    obtain ⟨h1, h2⟩ := parent_parts hf
    exact ⟨by rw [abs_normPath, abs_join hi, abs_join h, h2], by rw [parts_normPath, parts_join hi, parts_join h, h1]⟩

/-- An import that is itself an absolute path is that path, whatever the include path. -/
theorem C85_absolute_import (file imp dir : Str) (hi : isAbsolute imp = true) : SamePlace (candidate file imp dir) imp := by
  have hj : ∀ a, joinPath a imp = imp := by intro a; unfold joinPath; rw [if_pos hi]
  unfold candidate
  rw [hj, hj, ite_self]
  exact ⟨abs_normPath, parts_normPath imp⟩

/-- Every import of a file that is accepted means the first file there is on the include path, and that file is accepted. -/
theorem first_means {fs : Files} {search : List Str} {n : Nat} {p : Str} {D D0 : FileDescriptor} {imps : List Str}
    (h : readProtoFile fs search n p = .ok D) (hr : Reads fs p D0 imps) :
    ∀ imp ∈ imps, ∃ q, ImportMeans fs search p imp q ∧ ∃ k E, readProtoFile fs search k q = .ok E := by
  cases n with
  | zero => cases h
  | succ n =>
    obtain ⟨D1, imps1, hr1, hf⟩ := readProtoFile_inv h
    obtain ⟨t, h1, h2⟩ := hr
    obtain ⟨t', h3, h4⟩ := hr1
    cases h1.symm.trans h3
    cases h2.symm.trans h4
    obtain ⟨_, _, hall⟩ := fetch_complete hf
    intro imp himp
    obtain ⟨q, f, hq, hq', _⟩ := hall imp himp
    exact ⟨q, findImport_iff.mp hq, n, f, hq'⟩

/-- Every import of a file that is accepted means the first file there is on the include path: the entries before the one that has
it have no such file. And that file is accepted as well. -/
theorem C85_first {fs : Files} {search : List Str} {n : Nat} {p : Str} {D D0 : FileDescriptor} {imps : List Str}
    (h : readProtoFile fs search n p = .ok D) (hr : Reads fs p D0 imps) (hp : FilePath p) :
    ∀ imp ∈ imps, isAbsolute imp = false → ∃ before dir after q, search = before ++ dir :: after ∧ Place p dir imp q ∧
      (fs q).isSome ∧ (∃ k E, readProtoFile fs search k q = .ok E) ∧ ∀ d ∈ before, ∃ q', Place p d imp q' ∧ fs q' = none := by
  intro imp himp ha
  obtain ⟨q, ⟨before, dir, after, h1, rfl, h3, h4⟩, h5⟩ := first_means h hr imp himp
  exact ⟨before, dir, after, _, h1, C85_place dir hp ha, h3, h5, fun d hd => ⟨_, C85_place d hp ha, h4 d hd⟩⟩

/-- `InvalidImport` is reported for an import of the file, or of one it imports, for which there is no file on the include path. -/
theorem C85_missing {fs : Files} {search : List Str} : ∀ {n : Nat} {p imp : Str},
    readProtoFile fs search n p = .error (.invalidImport imp) →
    ∃ q D imps, ImportsStar fs search p q ∧ Reads fs q D imps ∧ imp ∈ imps ∧ ∀ dir ∈ search, fs (candidate q imp dir) = none := by
  intro n
  induction n with
  | zero => intro p imp h; cases h
  | succ n ih =>
    intro p imp h
    unfold readProtoFile at h
    cases hp : fs p with
    | none => simp only [hp] at h; cases h
    | some text =>
      simp only [hp] at h
      cases hq : parseFile p text with
      | error e =>
        simp only [hq] at h
        unfold parseFile at hq
        cases hx : readProto text with
        | panic => simp only [hx] at hq; cases hq; cases h
        | err => simp only [hx] at hq; cases hq; cases h
        | ok F r => simp only [hx] at hq; cases hq
      | ok x =>
        obtain ⟨D, imports⟩ := x
        simp only [hq] at h
        have hr : Reads fs p D imports := ⟨text, hp, hq⟩
        rcases fetch_error h with ⟨i, hi, hn, he⟩ | ⟨i, hi, q, hfi, he⟩
        · cases he
          refine ⟨p, D, imports, .refl p, hr, hi, fun dir hd => ?_⟩
          unfold findImport at hn
          have := List.find?_eq_none.mp hn (candidate p imp dir) (List.mem_map.mpr ⟨dir, hd, rfl⟩)
          simpa using this
        · obtain ⟨q', D', imps', hs, h1, h2, h3⟩ := ih he
          exact ⟨q', D', imps', ImportsStar.head ⟨D, imports, i, hr, hi, findImport_iff.mp hfi⟩ hs, h1, h2, h3⟩

/-- Without include paths (`search` is then `.`), imports are found in the directory of the importing file. -/
theorem C85_beside {fs : Files} {n : Nat} {p : Str} {D D0 : FileDescriptor} {imps : List Str}
    (h : readProtoFile fs [['.']] n p = .ok D) (hr : Reads fs p D0 imps) (hp : FilePath p) :
    ∀ imp ∈ imps, isAbsolute imp = false → ∃ q, (fs q).isSome ∧ isAbsolute q = isAbsolute p ∧
      parts q = (parts p).dropLast ++ parts imp := by
  intro imp himp ha
  obtain ⟨q, ⟨before, dir, after, h1, rfl, h3, h4⟩, h5⟩ := first_means h hr imp himp
  have hd : dir = ['.'] := by
    cases before with
    | nil => simp at h1; exact h1.1.symm
    | cons a l => simp at h1
  subst hd
  have hP := C85_place ['.'] hp ha
  unfold Place at hP
  rw [if_neg (by decide)] at hP
  obtain ⟨h6, h7⟩ := hP
  exact ⟨_, h3, h6, by rw [h7]; simp [show parts ['.'] = [] by decide]⟩

namespace SearchExample

/-- `main.proto` and a file it imports, which is there twice; and a file that imports it by its path from the working directory. -/
def files : Files := fun p =>
  if p = c! "src/a.proto" then some (c! "import \"b.proto\"; message A { optional B b = 1; }")
  else if p = c! "src/lib/b.proto" then some (c! "message B { optional int32 x = 1; }")
  else if p = c! "/inc/b.proto" then some (c! "message B { optional int32 y = 1; }")
  else if p = c! "src/c.proto" then some (c! "import \"src/a.proto\"; message C { optional A a = 1; }")
  else none

/-- The names of the fields of the messages that are read. -/
def fieldsOf (search : List Str) (p : Str) : Option (List (Str × List Str)) :=
  match readProtoFile files search 5 p with
  | .ok D => some (D.messages.map fun m => (m.name, m.fields.map (·.name)))
  | .error _ => none

/-- The first entry that has the file wins, in either order; a relative entry is taken from the directory of the importing file. -/
theorem C85_example :
    fieldsOf [c! "lib", c! "/inc", c! "."] (c! "src/a.proto") = some [(c! "A", [c! "b"]), (c! "B", [c! "x"])] ∧
    fieldsOf [c! "/inc", c! "lib", c! "."] (c! "src/a.proto") = some [(c! "A", [c! "b"]), (c! "B", [c! "y"])] ∧
    FilePath (c! "src/a.proto") ∧ candidate (c! "src/a.proto") (c! "b.proto") (c! "lib") = c! "src/lib/b.proto" := by
  refine ⟨by decide +kernel, by decide +kernel, ⟨by decide +kernel, by decide +kernel⟩, by decide +kernel⟩

/-- The working directory is not searched: an include path `src/lib` that has the file is of no use to `src/a.proto`, and a file that
imports another one by its path from the working directory, as `protoc` wants it, is rejected although that file is there. -/
theorem C85_refuted_working_directory :
    (files (c! "src/lib/b.proto")).isSome ∧
    readProtoFile files [c! "src/lib", c! "."] 5 (c! "src/a.proto") = .error (.invalidImport (c! "b.proto")) ∧
    (files (c! "src/a.proto")).isSome ∧
    readProtoFile files [c! "lib", c! "."] 5 (c! "src/c.proto") = .error (.invalidImport (c! "src/a.proto")) := by
  have key : ∀ search p i, (match readProtoFile files search 5 p with | .error (.invalidImport j) => some j | _ => none) = some i →
      readProtoFile files search 5 p = .error (.invalidImport i) := by
    intro search p i h
    cases hx : readProtoFile files search 5 p with
    | ok D => rw [hx] at h; cases h
    | error e =>
      rw [hx] at h
      cases e <;> cases h
      rfl
  exact ⟨by decide +kernel, key _ _ _ (by decide +kernel), by decide +kernel, key _ _ _ (by decide +kernel)⟩

end SearchExample

end QP.Pbrs
