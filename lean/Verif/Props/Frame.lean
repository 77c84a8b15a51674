import Verif.Spec.Frame
import Verif.Props.Search
import Verif.Props.Run
set_option linter.unusedVariables false
/-!
# What is generated depends on the files that are read, and not on where they are (C121)
-/

namespace QP.Pbrs

theorem find_looked {fs fs' : Files} {l : List Str} (h : ∀ before p after, l = before ++ p :: after → (∀ q ∈ before, fs q = none) → fs p = fs' p) :
    l.find? (fun p => (fs p).isSome) = l.find? (fun p => (fs' p).isSome) := by
  induction l with
  | nil => rfl
  | cons a l ih =>
    have ha := h [] a l rfl (fun _ h => nomatch h)
    rw [List.find?_cons, List.find?_cons, ← ha]
    cases hs : fs a with
    | some t => rfl
    | none =>
      refine ih fun before p after e hb => h (a :: before) p after (by rw [e]; rfl) fun q hq => ?_
      rcases List.mem_cons.mp hq with rfl | hq
      · exact hs
      · exact hb q hq

theorem findImport_looked {fs fs' : Files} {search : List Str} {file imp : Str}
    (h : ∀ before dir after, search = before ++ dir :: after → (∀ d ∈ before, fs (candidate file imp d) = none) →
      fs (candidate file imp dir) = fs' (candidate file imp dir)) : findImport fs search file imp = findImport fs' search file imp := by
  refine find_looked fun before p after e hb => ?_
  obtain ⟨b, r, e1, e2, e3⟩ := List.map_eq_append_iff.mp e
  obtain ⟨d, a, e4, rfl, e6⟩ := List.map_eq_cons_iff.mp e3
  refine h b d a (by rw [e1, e4]) fun q hq => hb _ ?_
  rw [← e2]
  exact List.mem_map_of_mem hq

/-- What is read depends only on the places at which pb-rs looks. -/
theorem read_frame {fs fs' : Files} {search : List Str} {main : Str} (h : ∀ p, Looked fs search main p → fs p = fs' p) (n : Nat) :
    ∀ file, Looked fs search main file → readProtoFile fs search n file = readProtoFile fs' search n file := by
  induction n with
  | zero => intro file _; rfl
  | succ n ih =>
    intro file hl
    unfold readProtoFile
    rw [← h file hl]
    cases ht : fs file with
    | none => rfl
    | some text =>
      dsimp only
      cases hp : parseFile file text with
      | error e => rfl
      | ok r =>
        obtain ⟨D, imps⟩ := r
        dsimp only
        have go : ∀ (l : List Str) (D0 : FileDescriptor), (∀ imp ∈ l, imp ∈ imps) →
            fetchImports fs search (readProtoFile fs search n) file l D0 = fetchImports fs' search (readProtoFile fs' search n) file l D0 := by
          intro l
          induction l with
          | nil => intro D0 _; rfl
          | cons imp l ihl =>
            intro D0 hsub
            have himp := hsub imp List.mem_cons_self
            have hlook : ∀ before dir after, search = before ++ dir :: after → (∀ d ∈ before, fs (candidate file imp d) = none) →
                Looked fs search main (candidate file imp dir) := fun before dir after e hb => .import_ hl ⟨text, ht, hp⟩ himp e hb
            have hf : findImport fs search file imp = findImport fs' search file imp :=
              findImport_looked fun before dir after e hb => h _ (hlook before dir after e hb)
            unfold fetchImports
            rw [← hf]
            cases hq : findImport fs search file imp with
            | none => rfl
            | some q =>
              dsimp only
              have hlq : Looked fs search main q := by
                unfold findImport at hq
                obtain ⟨hs, as, bs, e, hno⟩ := List.find?_eq_some_iff_append.mp hq
                obtain ⟨b, r, e1, e2, e3⟩ := List.map_eq_append_iff.mp e
                obtain ⟨d, a, e4, rfl, e6⟩ := List.map_eq_cons_iff.mp e3
                refine hlook b d a (by rw [e1, e4]) fun x hx => ?_
                have := hno (candidate file imp x) (by rw [← e2]; exact List.mem_map_of_mem hx)
                simpa using this
              rw [← ih q hlq]
              cases readProtoFile fs search n q with
              | error e => rfl
              | ok f => exact ihl _ fun x hx => hsub x (List.mem_cons_of_mem _ hx)
        exact go imps D fun _ h => h

/-- **C121.** If two disks have the same at the places at which pb-rs looks, it reads the same, or reports the same error. -/
theorem C121_read {fs fs' : Files} {search : List Str} {file : Str} (h : ∀ p, Looked fs search file p → fs p = fs' p) (n : Nat) :
    readProtoFile fs search n file = readProtoFile fs' search n file := read_frame h n file .self

/-- **C121.** And it generates the same: the same path, the same text. -/
theorem C121_frame {n : Nat} {j : Job} {d₁ d₂ : Disk} (h : ∀ p, Looked d₁.file j.search j.inFile p → d₁.file p = d₂.file p) :
    j.compiled n d₁ = j.compiled n d₂ ∧ j.out n d₁ = j.out n d₂ ∧ j.text n d₁ = j.text n d₂ := by
  have hc : j.compiled n d₁ = j.compiled n d₂ := by
    unfold Job.compiled compileFile
    rw [C121_read h n]
  refine ⟨hc, ?_, ?_⟩
  · unfold Job.out
    rw [hc]
  · unfold Job.text
    rw [hc, h j.inFile .self]

/-- **C121.** Two successful runs on disks that have the same at the places at which pb-rs looks write the same text to the same path; whatever else is on
the disks, and whatever was there before. -/
theorem C121_run {junk₁ junk₂ : Str} {n : Nat} {j : Job} {d₁ d₂ d₁' d₂' : Disk} (hn : j.noOutput = false)
    (h : ∀ p, Looked d₁.file j.search j.inFile p → d₁.file p = d₂.file p) (h₁ : writeProto junk₁ n j d₁ = (.ok (), d₁'))
    (h₂ : writeProto junk₂ n j d₂ = (.ok (), d₂')) : ∃ p t, d₁'.file p = some t ∧ d₂'.file p = some t ∧ j.out n d₁ = some p := by
  obtain ⟨p, t, e1, e2, e3⟩ := C73_written hn h₁
  obtain ⟨p', t', e1', e2', e3'⟩ := C73_written hn h₂
  obtain ⟨_, ho, ht⟩ := C121_frame (n := n) h
  have ep := e1.symm.trans (ho.trans e1')
  cases ep
  have et := e2.symm.trans (ht.trans e2')
  cases et
  exact ⟨p, t, e3, e3', e1⟩

/-! ## Moving the files -/

theorem takeWhile_append_all {p : Char → Bool} {a b : Str} (h : ∀ x ∈ a, p x = true) : (a ++ b).takeWhile p = a ++ b.takeWhile p := by
  induction a with
  | nil => rfl
  | cons x a ih =>
    rw [List.cons_append, List.takeWhile_cons, h x List.mem_cons_self, if_pos rfl, ih fun y hy => h y (List.mem_cons_of_mem _ hy)]
    rfl

theorem splitSlash_of {x b : Str} (hx : x = [] ∨ ∃ y, x = y ++ ['/']) (hb : '/' ∉ b) : (splitSlash (x ++ b)).2 = b := by
  unfold splitSlash
  simp only [List.reverse_append]
  rw [takeWhile_append_all fun c hc => by
    have : c ≠ '/' := fun e => hb (by rw [← e]; exact List.mem_reverse.mp hc)
    simpa using this]
  rcases hx with rfl | ⟨y, rfl⟩
  · simp
  · simp

theorem last_append {x p : Str} (hx : x = [] ∨ ∃ y, x = y ++ ['/']) : (splitSlash (x ++ p)).2 = (splitSlash p).2 := by
  have e : x ++ p = (x ++ (splitSlash p).1) ++ (splitSlash p).2 := by
    conv => lhs; rw [splitSlash_eq p]
    rw [List.append_assoc]
  rw [e]
  refine splitSlash_of ?_ (splitSlash_name p)
  rcases splitSlash_dir p with h | ⟨y, h⟩
  · rw [h, List.append_nil]; exact hx
  · rw [h]; exact .inr ⟨x ++ y, by rw [List.append_assoc]⟩

theorem last_join {a b : Str} (hb : isAbsolute b = false) : (splitSlash (joinPath a b)).2 = (splitSlash b).2 := by
  unfold joinPath
  rw [hb]
  simp only [Bool.false_eq_true, if_false]
  split
  · rfl
  · split
    · rename_i h
      refine last_append (.inr ?_)
      obtain ⟨y, hy⟩ := List.getLast?_eq_some_iff.mp h
      exact ⟨y, hy⟩
    · have : a ++ '/' :: b = (a ++ ['/']) ++ b := by rw [List.append_assoc]; rfl
      rw [this]
      exact last_append (.inr ⟨a, rfl⟩)

theorem last_norm (p : Str) : (splitSlash (normPath p)).2 = (splitSlash p).2 := splitSlash_of (normDir_split _) (splitSlash_name p)

theorem last_candidate {file imp : Str} (dir : Str) (hi : isAbsolute imp = false) : (splitSlash (candidate file imp dir)).2 = (splitSlash imp).2 := by
  unfold candidate
  rw [last_norm]
  split <;> exact last_join hi

theorem last_parts {p : Str} (h : FilePath p) : (parts p).getLast? = some (splitSlash p).2 := by
  rw [parts_split, parts_name (splitSlash_name p) h.1 h.2, List.getLast?_append]
  rfl

/-- Moved files keep their names. -/
theorem MovedPath.name {base p p' : Str} (h : MovedPath base p p') : (splitSlash p').2 = (splitSlash p).2 := by
  have h1 := last_parts h.file'
  rw [h.parts, List.getLast?_append, last_parts h.file] at h1
  exact (Option.some.inj h1).symm

/-- Where imports are looked for moves with the files. -/
theorem MovedPath.candidate {base p p' imp dir : Str} (h : MovedPath base p p') (hi : isAbsolute imp = false) (hf : FilePath imp)
    (hd : isAbsolute dir = false) : MovedPath base (candidate p imp dir) (candidate p' imp dir) := by
  have c := C85_place (imp := imp) dir h.file hi
  have c' := C85_place (imp := imp) dir h.file' hi
  unfold Place at c c'
  rw [hd] at c c'
  simp only [Bool.false_eq_true, if_false] at c c'
  refine ⟨c.root.trans h.relative, c'.root.trans h.root, ?_, ?_, ?_⟩
  · rw [c'.parts, c.parts, h.parts, List.dropLast_append_of_ne_nil]
    · simp only [List.append_assoc]
    · intro e
      have := last_parts h.file
      rw [e] at this
      cases this
  · unfold FilePath; rw [last_candidate dir hi]; exact hf
  · unfold FilePath; rw [last_candidate dir hi]; exact hf

theorem parseFile_moved {base p p' text : Str} (h : MovedPath base p p') : (parseFile p' text).toOption = (parseFile p text).toOption := by
  have e : getFileStem p' = getFileStem p := by unfold getFileStem fileStem; rw [h.name]
  unfold parseFile
  cases Parse.readProto text with
  | ok F r => dsimp only; rw [e]
  | _ => rfl

theorem find_moved {α : Type} {P P' : α → Bool} {l : List α} (h : ∀ a ∈ l, P a = P' a) : l.find? P = l.find? P' := by
  induction l with
  | nil => rfl
  | cons a l ih =>
    rw [List.find?_cons, List.find?_cons, h a List.mem_cons_self, ih fun x hx => h x (List.mem_cons_of_mem _ hx)]

theorem read_moved {base : Str} {fs fs' : Files} {search : List Str} (hm : MovedFiles base fs fs') (hp : PlainImports fs)
    (hs : ∀ dir ∈ search, isAbsolute dir = false) (n : Nat) :
    ∀ p p', MovedPath base p p' → (readProtoFile fs' search n p').toOption = (readProtoFile fs search n p).toOption := by
  induction n with
  | zero => intro p p' _; rfl
  | succ n ih =>
    intro p p' h
    unfold readProtoFile
    rw [hm p p' h]
    cases ht : fs p with
    | none => rfl
    | some text =>
      dsimp only
      have he := parseFile_moved (text := text) h
      cases hq : parseFile p text with
      | error e =>
        rw [hq] at he
        cases hq' : parseFile p' text with
        | error e' => rfl
        | ok r => rw [hq'] at he; cases he
      | ok r =>
        rw [hq] at he
        cases hq' : parseFile p' text with
        | error e' => rw [hq'] at he; cases he
        | ok r' =>
          rw [hq'] at he
          cases he
          obtain ⟨D, imps⟩ := r
          dsimp only
          have hplain := hp p D imps ⟨text, ht, hq⟩
          have go : ∀ (l : List Str) (D0 : FileDescriptor), (∀ imp ∈ l, imp ∈ imps) →
              (fetchImports fs' search (readProtoFile fs' search n) p' l D0).toOption = (fetchImports fs search (readProtoFile fs search n) p l D0).toOption := by
            intro l
            induction l with
            | nil => intro D0 _; rfl
            | cons imp l ihl =>
              intro D0 hsub
              obtain ⟨hi, hf⟩ := hplain imp (hsub imp List.mem_cons_self)
              have mv : ∀ dir ∈ search, MovedPath base (candidate p imp dir) (candidate p' imp dir) := fun dir hd => h.candidate hi hf (hs dir hd)
              have e1 : findImport fs search p imp = (search.find? fun dir => (fs (candidate p imp dir)).isSome).map (candidate p imp) := by
                unfold findImport; rw [List.find?_map]; rfl
              have e2 : findImport fs' search p' imp = (search.find? fun dir => (fs (candidate p imp dir)).isSome).map (candidate p' imp) := by
                unfold findImport
                rw [List.find?_map]
                congr 1
                exact find_moved fun dir hd => by simp only [Function.comp]; rw [hm _ _ (mv dir hd)]
              unfold fetchImports
              rw [e1, e2]
              cases hd : search.find? fun dir => (fs (candidate p imp dir)).isSome with
              | none => rfl
              | some dir =>
                simp only [Option.map_some]
                have := ih _ _ (mv dir (List.mem_of_find?_eq_some hd))
                cases hr : readProtoFile fs search n (candidate p imp dir) with
                | error e =>
                  rw [hr] at this
                  cases hr' : readProtoFile fs' search n (candidate p' imp dir) with
                  | error e' => rfl
                  | ok f => rw [hr'] at this; cases this
                | ok f =>
                  rw [hr] at this
                  cases hr' : readProtoFile fs' search n (candidate p' imp dir) with
                  | error e' => rw [hr'] at this; cases this
                  | ok f' =>
                    rw [hr'] at this
                    cases this
                    exact ihl _ fun x hx => hsub x (List.mem_cons_of_mem _ hx)
          exact go imps D fun _ h => h

/-- **C121.** Where the files are does not matter: if a tree of files is moved to another directory, pb-rs generates the same text from it. (Include
path and imports are relative; an output path that is given stays.) -/
theorem C121_moved {n : Nat} {j : Job} {d d' : Disk} {base p' : Str} (hd : MovedFiles base d.file d'.file) (hp : MovedPath base j.inFile p')
    (hi : PlainImports d.file) (hs : ∀ dir ∈ j.search, isAbsolute dir = false) :
    ({ j with inFile := p' } : Job).compiled n d' = j.compiled n d ∧ ({ j with inFile := p' } : Job).text n d' = j.text n d := by
  have hr := read_moved hd hi hs n _ _ hp
  have hc : ({ j with inFile := p' } : Job).compiled n d' = j.compiled n d := by
    unfold Job.compiled compileFile
    dsimp only
    cases h1 : readProtoFile d.file j.search n j.inFile with
    | error e =>
      rw [h1] at hr
      cases h2 : readProtoFile d'.file j.search n p' with
      | error e' => rfl
      | ok D => rw [h2] at hr; cases hr
    | ok D =>
      rw [h1] at hr
      cases h2 : readProtoFile d'.file j.search n p' with
      | error e' => rw [h2] at hr; cases hr
      | ok D' => rw [h2] at hr; cases hr; rfl
  refine ⟨hc, ?_⟩
  unfold Job.text
  rw [hc]
  dsimp only
  rw [hp.name, hd _ _ hp]

/-! ## The example -/

namespace FrameExample

/-- A tree of files (by their components) in the directory `base`. -/
def tree (t : List Str → Option Str) (base : Str) : Disk where
  file p := if isAbsolute p = isAbsolute base ∧ parts base <+: parts p then t ((parts p).drop (parts base).length) else none
  dir _ := false

theorem moved_tree (t : List Str → Option Str) (base : Str) : MovedFiles base (tree t []).file (tree t base).file := by
  intro p p' h
  unfold tree
  simp only
  rw [if_pos ⟨h.root, by rw [h.parts]; exact List.prefix_append _ _⟩, if_pos ⟨h.relative.trans rfl, by rw [parts_nil]; exact List.nil_prefix⟩, h.parts, parts_nil]
  simp

def aText : Str := c! "import \"b.proto\"; message A { optional B b = 1; }"
def bText : Str := c! "message B { optional int32 x = 1; }"

/-- Two files: `src/a.proto` imports `src/lib/b.proto`. -/
def files (l : List Str) : Option Str :=
  if l = [c! "src", c! "a.proto"] then some aText else if l = [c! "src", c! "lib", c! "b.proto"] then some bText else none

def job : Job := { inFile := c! "src/a.proto", outFile := c! "out/a.rs", search := [c! "lib", c! "."] }

def plainB (text : Str) : Bool :=
  match Parse.readProto text with
  | .ok F _ => F.imports.all fun i => !isAbsolute i && !(splitSlash i).2.isEmpty && (splitSlash i).2 != ['.']
  | _ => true

theorem plain_of {fs : Files} (h : ∀ p text, fs p = some text → plainB text = true) : PlainImports fs := by
  rintro p D imps ⟨text, ht, hp⟩ imp hi
  have := h p text ht
  unfold plainB at this
  unfold parseFile at hp
  cases hF : Parse.readProto text with
  | ok F r =>
    rw [hF] at this hp
    dsimp only at this hp
    cases hp
    have := List.all_eq_true.mp this imp hi
    simpa [FilePath, and_assoc] using this
  | _ => rw [hF] at hp; cases hp

end FrameExample

open FrameExample in
/-- The conditions of C121_moved are met by two files that are moved from the working directory to `/home/u`, and a text is generated. -/
theorem C121_example : MovedFiles (c! "/home/u") (tree files []).file (tree files (c! "/home/u")).file ∧
    MovedPath (c! "/home/u") job.inFile (c! "/home/u/src/a.proto") ∧ PlainImports (tree files []).file ∧ (∀ dir ∈ job.search, isAbsolute dir = false) ∧
    (job.text 2 (tree files [])).isSome = true ∧
    Looked (tree files []).file job.search job.inFile (c! "src/lib/b.proto") := by
  refine ⟨moved_tree _ _, ⟨by decide +kernel, by decide +kernel, by decide +kernel, ⟨by decide +kernel, by decide +kernel⟩, ⟨by decide +kernel, by decide +kernel⟩⟩, ?_,
    by decide +kernel, by decide +kernel, ?_⟩
  · refine plain_of fun p text h => ?_
    unfold tree files at h
    simp only at h
    split at h
    · split at h
      · cases h; decide +kernel
      · split at h
        · cases h; decide +kernel
        · cases h
    · cases h
  · have hp : (match parseFile job.inFile aText with | .ok r => decide (r.2 = [c! "b.proto"]) | .error _ => false) = true := by decide +kernel
    cases hq : parseFile job.inFile aText with
    | error e => rw [hq] at hp; cases hp
    | ok r =>
      rw [hq] at hp
      obtain ⟨D, imps⟩ := r
      have hi : imps = [c! "b.proto"] := by simpa using hp
      have hl : Looked (tree files []).file job.search job.inFile (candidate job.inFile (c! "b.proto") (c! "lib")) :=
        .import_ (before := []) .self ⟨aText, by decide +kernel, hq⟩ (by rw [hi]; exact List.mem_singleton.mpr rfl) rfl (fun _ h => nomatch h)
      have e : candidate job.inFile (c! "b.proto") (c! "lib") = c! "src/lib/b.proto" := by decide +kernel
      rw [e] at hl
      exact hl

end QP.Pbrs
