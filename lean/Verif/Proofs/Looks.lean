import Verif.Proofs.Turns
set_option linter.unusedVariables false
/-!
# What a run of pb-rs looks at and changes when its directories are there: proofs
-/

namespace QP.Pbrs
open Parse

/-- Nothing depends on `.proto` files any more. -/
def Prog.Free : Prog → Prop
  | .done _ => True
  | .files _ => False
  | .exists_ _ k => ∀ b, (k b).Free
  | .isDir _ k => ∀ b, (k b).Free
  | .mkdirs _ k => ∀ b, (k b).Free
  | .open_ _ k => ∀ b, (k b).Free
  | .create _ k => ∀ b, (k b).Free
  | .write _ _ _ k => ∀ b, (k b).Free
  | .append _ _ k => ∀ b, (k b).Free

theorem Prog.Free.steady {p : Prog} (h : p.Free) : ∀ d, p.Steady d := by
  induction p with
  | done r => intro d; trivial
  | files k ih => exact h.elim
  | exists_ p k ih => intro d; exact ih _ (h _) _
  | isDir p k ih => intro d; exact ih _ (h _) _
  | mkdirs p k ih => intro d; exact ih _ (h _) _
  | open_ p k ih => intro d; exact ih _ (h _) _
  | create p k ih => intro d; exact ih _ (h _) _
  | write p pos s k ih => intro d; exact ih _ (h _) _
  | append p s k ih => intro d; exact ih _ (h _) _

theorem free_writeParts (p : Str) (ts : List Str) {k : Option Nat → Prog} (hk : ∀ r, (k r).Free) : ∀ pos, (writeParts p pos ts k).Free := by
  induction ts with
  | nil => intro pos; exact hk _
  | cons t ts ih =>
    intro pos b
    cases b
    · exact hk _
    · exact ih _

theorem free_appendParts (p : Str) (ts : List Str) {k : Bool → Prog} (hk : ∀ r, (k r).Free) : (appendParts p ts k).Free := by
  induction ts with
  | nil => exact hk _
  | cons t ts ih =>
    intro b
    cases b
    · exact hk _
    · exact ih

theorem free_updateMod (p : Str) {k : Except RunError Unit → Prog} (hk : ∀ r, (k r).Free) : (updateModSteps p k).Free := by
  intro o
  cases o with
  | none =>
    intro b
    cases b
    · exact hk _
    · refine free_writeParts _ _ (fun r => ?_) _
      cases r <;> exact hk _
  | some text =>
    simp only
    cases isPresent (fileStem p) (lines text) with
    | none => exact hk _
    | some b =>
      cases b
      · refine free_appendParts _ _ fun r => ?_
        cases r <;> exact hk _
      · exact hk _

theorem free_enterDirs (ps : List Str) {k : Except RunError Str → Prog} (hk : ∀ r, (k r).Free) : ∀ out, (enterDirsSteps out ps k).Free := by
  induction ps with
  | nil => intro out; exact hk _
  | cons p ps ih =>
    intro out b
    cases b with
    | true => exact ih _
    | false =>
      intro b
      cases b with
      | false => exact hk _
      | true =>
        simp only [if_true]
        refine free_updateMod _ fun r => ?_
        cases r with
        | error e => exact hk _
        | ok u => exact ih _

theorem free_after (cut : Str → List Str × Str) (junk : Str) (j : Job) (D : FileDescriptor) (w : Except EmitError Doc) : (j.after cut junk D w).Free := by
  refine free_enterDirs _ (fun r => ?_) _
  cases r with
  | error e => trivial
  | ok dir =>
    simp only
    cases j.noOutput with
    | true => trivial
    | false =>
      simp only [Bool.false_eq_true, if_false]
      intro a b
      show Prog.Free (if (a || !b) = true then _ else _)
      split
      · trivial
      · cases w with
        | error e =>
          intro b
          cases b
          · trivial
          · exact fun _ => trivial
        | ok t =>
          intro b
          cases b
          · trivial
          · refine free_writeParts _ _ (fun r => ?_) _
            cases r with
            | none => trivial
            | some pos => exact free_updateMod _ fun r _ => trivial

theorem steady_job (cut : Str → List Str × Str) (junk : Str) {n : Nat} {j : Job} {d : Disk} (hd : NoRsImports d) (hj : ¬ IsRs j.inFile) :
    (j.steps cut junk n).Steady d := by
  refine ⟨fun fs hfs => ?_, ?_⟩
  · have h1 : readProtoFile fs j.search n j.inFile = readProtoFile d.file j.search n j.inFile := read_same (same_files hfs) hd n _ hj
    simp only [compileFile, h1, hfs _ hj]
  · obtain ⟨k, hk, h⟩ := first_step cut junk (n := n) hd hj
    have e : j.steps cut junk n = .files k := hk
    unfold Job.steps at e
    cases e
    rcases h d.file (fun _ _ => rfl) with ⟨_, e, he⟩ | ⟨D, w, _, _, he⟩
    · rw [he]; trivial
    · rw [he]; exact (free_after cut junk j D w).steady d

/-! ## Bounds -/

variable {x : Item}

theorem bound_writeParts (p : Str) (ts : List Str) (k : Option Nat → Prog) : ∀ (pos : Nat) (d : Disk),
    ((writeParts p pos ts k).looks d x → ∃ r d', (∀ q, q ≠ p → d'.file q = d.file q) ∧ (k r).looks d' x) ∧
    ((writeParts p pos ts k).changes d x → x = .file p ∨ ∃ r d', (∀ q, q ≠ p → d'.file q = d.file q) ∧ (k r).changes d' x) := by
  induction ts with
  | nil => intro pos d; exact ⟨fun h => ⟨_, d, fun _ _ => rfl, h⟩, fun h => Or.inr ⟨_, d, fun _ _ => rfl, h⟩⟩
  | cons t ts ih =>
    intro pos d
    have other : ∀ s q, q ≠ p → (d.put p s).file q = d.file q := fun s q h => if_neg h
    refine ⟨fun h => ?_, fun h => ?_⟩
    · obtain ⟨r, d', h1, h2⟩ := (ih _ _).1 h
      exact ⟨r, d', fun q hq => (h1 q hq).trans (other _ q hq), h2⟩
    · rcases h with h | h
      · exact Or.inl h
      · rcases (ih _ _).2 h with h | ⟨r, d', h1, h2⟩
        · exact Or.inl h
        · exact Or.inr ⟨r, d', fun q hq => (h1 q hq).trans (other _ q hq), h2⟩

theorem bound_appendParts (p : Str) (ts : List Str) (k : Bool → Prog) : ∀ (d : Disk),
    ((appendParts p ts k).looks d x → ∃ r d', (k r).looks d' x) ∧ ((appendParts p ts k).changes d x → x = .file p ∨ ∃ r d', (k r).changes d' x) := by
  induction ts with
  | nil => intro d; exact ⟨fun h => ⟨_, d, h⟩, fun h => Or.inr ⟨_, d, h⟩⟩
  | cons t ts ih =>
    intro d
    refine ⟨fun h => (ih _).1 h, fun h => ?_⟩
    rcases h with h | h
    · exact Or.inl h
    · exact (ih _).2 h

theorem bound_updateMod (p : Str) (k : Except RunError Unit → Prog) (d : Disk) :
    ((updateModSteps p k).looks d x → x = .file (modPath p) ∨ ∃ r d', (k r).looks d' x) ∧
    ((updateModSteps p k).changes d x → (x = .file (modPath p) ∧ ¬ Listed d p) ∨ ∃ r d', (k r).changes d' x) := by
  have nl : ∀ h : ¬ ∃ text, d.file (modPath p) = some text ∧ isPresent (fileStem p) (lines text) = some true, ¬ Listed d p := by
    rintro h ⟨text, h1, h2⟩
    refine h ⟨text, h1, ?_⟩
    unfold updateModFile at h2
    simp only at h2
    cases hp : isPresent (fileStem p) (lines text) with
    | none => rw [hp] at h2; cases h2
    | some b =>
      cases b with
      | true => rfl
      | false =>
        rw [hp] at h2
        replace h2 : some (some (text ++ modLine (fileStem p))) = some (some text) := h2
        have := congrArg List.length (Option.some.inj (Option.some.inj h2))
        rw [List.length_append, modLine, List.length_append] at this
        simp only [List.length_cons, List.length_nil] at this
        omega
  unfold updateModSteps
  refine ⟨fun h => ?_, fun h => ?_⟩
  · rcases h with h | h
    · exact Or.inl h
    · refine Or.inr ?_
      cases ho : d.file (modPath p) with
      | none =>
        rw [ho] at h
        obtain ⟨r, d', _, h2⟩ := (bound_writeParts _ _ _ _ _).1 (show Prog.looks (writeParts _ _ _ _) _ x from h)
        cases r with
        | none => exact ⟨_, _, h2⟩
        | some v => exact ⟨_, _, h2⟩
      | some text =>
        rw [ho] at h
        simp only at h
        cases hp : isPresent (fileStem p) (lines text) with
        | none => rw [hp] at h; exact ⟨_, _, h⟩
        | some b =>
          cases b with
          | true => rw [hp] at h; exact ⟨_, _, h⟩
          | false =>
            rw [hp] at h
            obtain ⟨r, d', h2⟩ := (bound_appendParts _ _ _ _).1 h
            cases r with
            | false => exact ⟨_, _, h2⟩
            | true => exact ⟨_, _, h2⟩
  · replace h : Prog.changes (match (d.file (modPath p)) with | none => _ | some text => _) d x := h
    cases ho : d.file (modPath p) with
    | none =>
      have hl : ¬ Listed d p := nl (by rintro ⟨t, h1, _⟩; rw [ho] at h1; cases h1)
      rw [ho] at h
      rcases h with h | h
      · exact Or.inl ⟨h, hl⟩
      · rcases (bound_writeParts _ _ _ _ _).2 (show Prog.changes (writeParts _ _ _ _) _ x from h) with h | ⟨r, d', _, h2⟩
        · exact Or.inl ⟨h, hl⟩
        · cases r with
          | none => exact Or.inr ⟨_, _, h2⟩
          | some v => exact Or.inr ⟨_, _, h2⟩
    | some text =>
      rw [ho] at h
      simp only at h
      cases hp : isPresent (fileStem p) (lines text) with
      | none => rw [hp] at h; exact Or.inr ⟨_, _, h⟩
      | some b =>
        cases b with
        | true => rw [hp] at h; exact Or.inr ⟨_, _, h⟩
        | false =>
          have hl : ¬ Listed d p := nl (by rintro ⟨t, h1, h2⟩; rw [ho] at h1; cases h1; rw [hp] at h2; cases h2)
          rw [hp] at h
          rcases (bound_appendParts _ _ _ _).2 h with h | ⟨r, d', h2⟩
          · exact Or.inl ⟨h, hl⟩
          · cases r with
            | false => exact Or.inr ⟨_, _, h2⟩
            | true => exact Or.inr ⟨_, _, h2⟩

theorem bound_enterDirs (ps : List Str) (k : Except RunError Str → Prog) (d : Disk) : ∀ out, AllExist d out ps →
    ((enterDirsSteps out ps k).looks d x → (∃ a, ∃ p ∈ ps, x = .file (joinPath a p) ∨ x = .dir (joinPath a p)) ∨ (k (.ok (ps.foldl joinPath out))).looks d x) ∧
    ((enterDirsSteps out ps k).changes d x → (k (.ok (ps.foldl joinPath out))).changes d x) := by
  induction ps with
  | nil => intro out _; exact ⟨fun h => Or.inr h, fun h => h⟩
  | cons p ps ih =>
    intro out he
    rw [enterDirsSteps]
    refine ⟨fun h => ?_, fun h => ?_⟩
    · rcases h with h | h
      · exact Or.inl ⟨out, p, List.mem_cons_self .., h⟩
      · rw [he.1] at h
        rcases (ih _ he.2).1 h with ⟨a, q, hq, h⟩ | h
        · exact Or.inl ⟨a, q, List.mem_cons_of_mem _ hq, h⟩
        · exact Or.inr h
    · replace h : Prog.changes (if d.exists_ (joinPath out p) = true then _ else _) d x := h
      rw [he.1, if_pos rfl] at h
      exact (ih _ he.2).2 h

theorem splitDot_dots : ∀ {s p : Str}, p ∈ splitDot s → '.' ∉ p := by
  intro s
  induction s with
  | nil => intro p h; rw [splitDot, List.mem_singleton] at h; rw [h]; simp
  | cons c cs ih =>
    intro p h
    rw [splitDot] at h
    split at h
    · rcases List.mem_cons.mp h with rfl | h
      · simp
      · exact ih h
    · rename_i hc
      cases hs : splitDot cs with
      | nil => rw [hs] at h; simp only [List.mem_singleton] at h; rw [h]; simp only [List.mem_singleton]; exact fun e => hc e.symm
      | cons a l =>
        rw [hs] at h
        rcases List.mem_cons.mp h with rfl | h
        · intro hm
          rcases List.mem_cons.mp hm with e | hm
          · exact hc e.symm
          · exact ih (hs ▸ List.mem_cons_self ..) hm
        · exact ih (hs ▸ List.mem_cons_of_mem _ h)

theorem dirs_notRs {package p a : Str} (h : p ∈ packageDirs package) : ¬ IsRs (joinPath a p) := by
  intro hr
  have h1 := rs_join hr
  unfold packageDirs at h
  split at h
  · cases h
  · have : '.' ∈ p := List.IsSuffix.subset h1 (by decide)
    exact splitDot_dots h this

theorem allExist_of {d : Disk} (ps : List Str) : ∀ {out : Str}, (∀ before, before <+: ps → before ≠ [] → d.exists_ (before.foldl joinPath out) = true) → AllExist d out ps := by
  induction ps with
  | nil => intro _ _; trivial
  | cons p ps ih =>
    intro out h
    refine ⟨h [p] ⟨ps, rfl⟩ (by simp), ih fun before hb hn => ?_⟩
    exact h (p :: before) (List.cons_prefix_cons.mpr ⟨rfl, hb⟩) (by simp)

/-- What a run looks at and changes. -/
theorem bound_job {cut : Str → List Str × Str} {junk : Str} {n : Nat} {j : Job} {d : Disk} (hd : NoRsImports d) (hj : ¬ IsRs j.inFile) (hr : Ready d n j) :
    ((j.steps cut junk n).looks d x → (∃ q, x = .dir q) ∨ (∃ q, ¬ IsRs q ∧ x = .file q) ∨ ∃ out, j.out n d = some out ∧ x = .file (modPath out)) ∧
    ((j.steps cut junk n).changes d x → j.noOutput = false ∧ ∃ out, j.out n d = some out ∧ (x = .file out ∨ (x = .file (modPath out) ∧ ¬ Listed d out))) := by
  obtain ⟨k, hk, h⟩ := first_step cut junk (n := n) hd hj
  rw [hk]
  have key : ((k d.file).looks d x → (∃ q, x = .dir q) ∨ (∃ q, ¬ IsRs q ∧ x = .file q) ∨ ∃ out, j.out n d = some out ∧ x = .file (modPath out)) ∧
    ((k d.file).changes d x → j.noOutput = false ∧ ∃ out, j.out n d = some out ∧ (x = .file out ∨ (x = .file (modPath out) ∧ ¬ Listed d out))) := by
    rcases h d.file (fun _ _ => rfl) with ⟨_, e, he⟩ | ⟨D, w, hD, _, he⟩
    · rw [he]; exact ⟨fun h => h.elim, fun h => h.elim⟩
    rw [he]
    have hout : j.out n d = some (outPath D.package j.outFile) := by unfold Job.out; rw [hD]; rfl
    have hm : ¬ IsModRs (outPath D.package j.outFile) := (C71_out hout).2
    obtain ⟨b1, b2⟩ := bound_enterDirs (x := x) (packageDirs D.package) _ d (parentPath j.outFile) (allExist_of _ (hr D hD))
    have rest : ∀ p, p = (if j.noOutput = true then Prog.done (.ok ())
        else .isDir (outPath D.package j.outFile) fun a => .isDir (parentPath (outPath D.package j.outFile)) fun b =>
          if (a || !b) = true then .done (.error .io)
          else
            match w with
            | .error e => .create (outPath D.package j.outFile) fun ok => if ok = true then .write (outPath D.package j.outFile) 0 junk fun _ => .done (.error (.emit e)) else .done (.error .io)
            | .ok text => writeOut cut (outPath D.package j.outFile) text.str) →
        (p.looks d x → (∃ q, x = .dir q) ∨ ∃ out, j.out n d = some out ∧ x = .file (modPath out)) ∧
        (p.changes d x → j.noOutput = false ∧ ∃ out, j.out n d = some out ∧ (x = .file out ∨ (x = .file (modPath out) ∧ ¬ Listed d out))) := by
      rintro p rfl
      cases hn : j.noOutput with
      | true => exact ⟨fun h => h.elim, fun h => h.elim⟩
      | false =>
        simp only [Bool.false_eq_true, if_false]
        have inner : ∀ q, q = (if (d.isDir (outPath D.package j.outFile) || !d.isDir (parentPath (outPath D.package j.outFile))) = true then Prog.done (.error .io)
          else
            match w with
            | .error e => .create (outPath D.package j.outFile) fun ok => if ok = true then .write (outPath D.package j.outFile) 0 junk fun _ => .done (.error (.emit e)) else .done (.error .io)
            | .ok text => writeOut cut (outPath D.package j.outFile) text.str) →
            (q.looks d x → x = .file (modPath (outPath D.package j.outFile))) ∧
            (q.changes d x → x = .file (outPath D.package j.outFile) ∨ (x = .file (modPath (outPath D.package j.outFile)) ∧ ¬ Listed d (outPath D.package j.outFile))) := by
          rintro q rfl
          split
          · exact ⟨fun h => h.elim, fun h => h.elim⟩
          · cases w with
            | error e =>
              refine ⟨fun h => h.elim, fun h => ?_⟩
              rcases h with h | h | h
              · exact Or.inl h
              · exact Or.inl h
              · exact h.elim
            | ok text =>
              simp only
              unfold writeOut
              refine ⟨fun h => ?_, fun h => ?_⟩
              · obtain ⟨r, d', _, h2⟩ := (bound_writeParts _ _ _ _ _).1 (show Prog.looks (writeParts _ _ _ _) _ x from h)
                cases r with
                | none => exact h2.elim
                | some pos =>
                  rcases (bound_updateMod _ _ _).1 h2 with h | ⟨_, _, h⟩
                  · exact h
                  · exact h.elim
              · rcases h with h | h
                · exact Or.inl h
                · rcases (bound_writeParts _ _ _ _ _).2 (show Prog.changes (writeParts _ _ _ _) _ x from h) with h | ⟨r, d', hd', h2⟩
                  · exact Or.inl h
                  · cases r with
                    | none => exact h2.elim
                    | some pos =>
                      rcases (bound_updateMod _ _ _).2 h2 with ⟨h, hl⟩ | ⟨_, _, h⟩
                      · refine Or.inr ⟨h, fun hl' => hl ?_⟩
                        obtain ⟨t, h1, h2⟩ := hl'
                        have hne : modPath (outPath D.package j.outFile) ≠ outPath D.package j.outFile := fun e => hm (by rw [← e]; exact isMod_modPath _)
                        refine ⟨t, ?_, h2⟩
                        rw [hd' _ hne]
                        exact (if_neg hne).trans h1
                      · rcases h with h | h
                        · exact Or.inl h
                        · exact h.elim
        obtain ⟨i1, i2⟩ := inner _ rfl
        refine ⟨fun h => ?_, fun h => ⟨trivial, _, hout, i2 h⟩⟩
        rcases h with h | h | h
        · exact Or.inl ⟨_, h⟩
        · exact Or.inl ⟨_, h⟩
        · exact Or.inr ⟨_, hout, i1 h⟩
    obtain ⟨r1, r2⟩ := rest _ rfl
    refine ⟨fun h => ?_, fun h => r2 (b2 h)⟩
    rcases b1 h with ⟨a, p, hp, h | h⟩ | h
    · exact Or.inr (Or.inl ⟨_, dirs_notRs hp, h⟩)
    · exact Or.inl ⟨_, h⟩
    · rcases r1 h with h | h
      · exact Or.inl h
      · exact Or.inr (Or.inr h)
  refine ⟨fun h => ?_, key.2⟩
  rcases h with h | h
  · exact Or.inr (Or.inl h)
  · exact key.1 h

end QP.Pbrs
