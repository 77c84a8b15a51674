import Verif.Proofs.Steps
set_option linter.unusedVariables false
/-!
# Several runs of pb-rs under any schedule, with failing calls: proofs
-/

namespace QP.Pbrs
open Parse

/-! ## What a run writes to -/

/-- The same `.proto` files. -/
def SameAs (d : Disk) (fs : Files) : Prop := ∀ q, ¬ IsRs q → fs q = d.file q

/-- Whatever the answers of the system, only files with `W` are written. -/
def Prog.Sticks (d : Disk) (W : Str → Prop) : Prog → Prop
  | .done _ => True
  | .files k => ∀ fs, SameAs d fs → (k fs).Sticks d W
  | .exists_ _ k => ∀ b, (k b).Sticks d W
  | .isDir _ k => ∀ b, (k b).Sticks d W
  | .mkdirs _ k => ∀ b, (k b).Sticks d W
  | .open_ _ k => ∀ b, (k b).Sticks d W
  | .create p k => W p ∧ ∀ b, (k b).Sticks d W
  | .write p _ _ k => W p ∧ ∀ b, (k b).Sticks d W
  | .append p _ k => W p ∧ ∀ b, (k b).Sticks d W

variable {d : Disk} {W : Str → Prop}

theorem sticks_writeParts {p : Str} (hp : W p) (ts : List Str) {k : Option Nat → Prog} (hk : ∀ r, (k r).Sticks d W) : ∀ pos, (writeParts p pos ts k).Sticks d W := by
  induction ts with
  | nil => intro pos; exact hk _
  | cons t ts ih =>
    intro pos
    refine ⟨hp, fun b => ?_⟩
    cases b
    · exact hk _
    · exact ih _

theorem sticks_appendParts {p : Str} (hp : W p) (ts : List Str) {k : Bool → Prog} (hk : ∀ r, (k r).Sticks d W) : (appendParts p ts k).Sticks d W := by
  induction ts with
  | nil => exact hk _
  | cons t ts ih =>
    refine ⟨hp, fun b => ?_⟩
    cases b
    · exact hk _
    · exact ih

theorem sticks_updateMod {p : Str} (hp : W (modPath p)) {k : Except RunError Unit → Prog} (hk : ∀ r, (k r).Sticks d W) : (updateModSteps p k).Sticks d W := by
  intro o
  cases o with
  | none =>
    refine ⟨hp, fun b => ?_⟩
    cases b
    · exact hk _
    · refine sticks_writeParts hp _ (fun r => ?_) _
      cases r <;> exact hk _
  | some text =>
    simp only
    cases isPresent (fileStem p) (lines text) with
    | none => exact hk _
    | some b =>
      cases b
      · refine sticks_appendParts hp _ fun r => ?_
        cases r <;> exact hk _
      · exact hk _

theorem sticks_enterDirs (hm : ∀ p, W (modPath p)) (ps : List Str) {k : Except RunError Str → Prog} : ∀ out,
    (∀ r, (∀ dir, r = .ok dir → dir = ps.foldl joinPath out) → (k r).Sticks d W) → (enterDirsSteps out ps k).Sticks d W := by
  induction ps with
  | nil => intro out hk; exact hk _ fun dir h => (Except.ok.inj h).symm
  | cons p ps ih =>
    intro out hk b
    cases b with
    | true => exact ih _ hk
    | false =>
      intro b
      cases b with
      | false => exact hk _ fun dir h => by cases h
      | true =>
        simp only [if_true]
        refine sticks_updateMod (hm _) fun r => ?_
        cases r with
        | error e => exact hk _ fun dir h => by cases h
        | ok u => exact ih _ hk

/-- The descriptor that is printed depends on the `.proto` files only. -/
theorem same_files {fs : Files} (hfs : SameAs d fs) : SameSources d { d with file := fs } := hfs

/-- What `j` does after reading. -/
def Job.after (cut : Str → List Str × Str) (junk : Str) (j : Job) (D : FileDescriptor) (w : Except EmitError Doc) : Prog :=
  enterDirsSteps (parentPath j.outFile) (packageDirs D.package) fun
    | .error e => .done (.error e)
    | .ok dir =>
      let out := joinPath dir (outName D.package j.outFile)
      if j.noOutput then .done (.ok ())
      else .isDir out fun a => .isDir (parentPath out) fun b =>
        if a || !b then .done (.error .io)
        else
          match w with
          | .error e => .create out fun ok => if ok then .write out 0 junk fun _ => .done (.error (.emit e)) else .done (.error .io)
          | .ok text => writeOut cut out text.str

/-- The first step of a run, for the same `.proto` files. -/
theorem first_step (cut : Str → List Str × Str) (junk : Str) {n : Nat} {j : Job} (hd : NoRsImports d) (hj : ¬ IsRs j.inFile) :
    ∃ k, j.steps cut junk n = .files k ∧ ∀ fs, SameAs d fs →
      (j.compiled n d = none ∧ ∃ e, k fs = .done (.error e)) ∨
      ∃ D w, j.compiled n d = some D ∧ (∀ t, w = .ok t → j.text n d = some t.str) ∧ k fs = j.after cut junk D w := by
  refine ⟨_, rfl, fun fs hfs => ?_⟩
  have hc := compiled_same (same_files hfs) hd (n := n) hj
  have ht := text_same (same_files hfs) hd (n := n) hj
  rw [← hc, ← ht]
  cases hcf : compileFile fs j.search (typePath j.cfg) j.cfg n j.inFile with
  | error e => exact Or.inl ⟨by unfold Job.compiled; simp only; rw [hcf], _, rfl⟩
  | ok D =>
    have hD : j.compiled n { d with file := fs } = some (D.printed j.cfg) := by unfold Job.compiled; simp only; rw [hcf]
    refine Or.inr ⟨_, (D.printed j.cfg).write j.cfg (splitSlash j.inFile).2 (servicesOf ((fs j.inFile).getD [])), hD, fun t h => ?_, rfl⟩
    unfold Job.text
    rw [hD]
    simp only [Option.bind_some]
    rw [h]

theorem sticks_job (cut : Str → List Str × Str) (junk : Str) {n : Nat} {j : Job} (hd : NoRsImports d) (hj : ¬ IsRs j.inFile) :
    (j.steps cut junk n).Sticks d fun p => IsModRs p ∨ (j.noOutput = false ∧ j.out n d = some p) := by
  obtain ⟨k, hk, h⟩ := first_step cut junk (n := n) hd hj
  rw [hk]
  intro fs hfs
  rcases h fs hfs with ⟨_, e, he⟩ | ⟨D, w, hD, _, he⟩
  · rw [he]; trivial
  · rw [he]
    have hout : j.out n d = some (outPath D.package j.outFile) := by unfold Job.out; rw [hD]; rfl
    refine sticks_enterDirs (fun p => Or.inl (isMod_modPath p)) _ _ fun r hr => ?_
    cases r with
    | error e => trivial
    | ok dir =>
      cases hr dir rfl
      simp only
      cases hn : j.noOutput with
      | true => trivial
      | false =>
        simp only [Bool.false_eq_true, if_false]
        intro a b
        show Prog.Sticks d _ (if (a || !b) = true then _ else _)
        split
        · trivial
        · cases w with
          | error e =>
            refine ⟨Or.inr ⟨trivial, hout⟩, fun b => ?_⟩
            cases b
            · trivial
            · exact ⟨Or.inr ⟨trivial, hout⟩, fun _ => trivial⟩
          | ok t =>
            refine ⟨Or.inr ⟨trivial, hout⟩, fun b => ?_⟩
            cases b
            · trivial
            · refine sticks_writeParts (Or.inr ⟨trivial, hout⟩) _ (fun r => ?_) _
              cases r with
              | none => trivial
              | some pos => exact sticks_updateMod (Or.inl (isMod_modPath _)) fun r => ⟨Or.inr ⟨trivial, hout⟩, fun _ => trivial⟩

/-! ## The output -/

/-- Whatever the answers of the system, at a successful end the file `out` (which nobody else changes) has the text `t`. -/
def Prog.Delivers (d : Disk) (out : Str) (t : Option Str) : Prog → Option Str → Prop
  | .done r, cur => r = .ok () → t ≠ none ∧ cur = t
  | .files k, cur => ∀ fs, SameAs d fs → (k fs).Delivers d out t cur
  | .exists_ _ k, cur => ∀ b, (k b).Delivers d out t cur
  | .isDir _ k, cur => ∀ b, (k b).Delivers d out t cur
  | .mkdirs _ k, cur => ∀ b, (k b).Delivers d out t cur
  | .open_ _ k, cur => ∀ b, (k b).Delivers d out t cur
  | .create p k, cur => (k true).Delivers d out t (if p = out then some [] else cur) ∧ (k false).Delivers d out t cur
  | .write p pos s k, cur => (k true).Delivers d out t (if p = out then some (writeAt (cur.getD []) pos s) else cur) ∧
      ((¬ ∃ r, k = fun _ => .done r) → (k false).Delivers d out t cur)
  | .append p s k, cur => (k true).Delivers d out t (if p = out then some (cur.getD [] ++ s) else cur) ∧ (k false).Delivers d out t cur

variable {out : Str} {t : Option Str}

theorem delivers_writeParts {p : Str} (hp : p ≠ out) (ts : List Str) {k : Option Nat → Prog} {cur : Option Str} (hk : ∀ r, (k r).Delivers d out t cur) :
    ∀ pos, (writeParts p pos ts k).Delivers d out t cur := by
  induction ts with
  | nil => intro pos; exact hk _
  | cons u ts ih =>
    intro pos
    refine ⟨?_, fun _ => hk _⟩
    rw [if_neg hp]
    exact ih _

theorem delivers_writeOut (ts : List Str) {k : Option Nat → Prog} (hn : ∀ cur, (k none).Delivers d out t cur) : ∀ c : Str,
    (k (some (c ++ ts.flatten).length)).Delivers d out t (some (c ++ ts.flatten)) → (writeParts out c.length ts k).Delivers d out t (some c) := by
  induction ts with
  | nil => intro c hk; rw [List.flatten_nil, List.append_nil] at hk; exact hk
  | cons u ts ih =>
    intro c hk
    refine ⟨?_, fun _ => hn _⟩
    rw [if_pos rfl, Option.getD_some, writeAt_end]
    simp only [if_true]
    rw [← List.length_append]
    refine ih (c ++ u) ?_
    rw [List.append_assoc]
    exact hk

theorem delivers_appendParts {p : Str} (hp : p ≠ out) (ts : List Str) {k : Bool → Prog} {cur : Option Str} (hk : ∀ r, (k r).Delivers d out t cur) :
    (appendParts p ts k).Delivers d out t cur := by
  induction ts with
  | nil => exact hk _
  | cons u ts ih =>
    refine ⟨?_, hk _⟩
    rw [if_neg hp]
    exact ih

theorem delivers_updateMod {p : Str} (hp : modPath p ≠ out) {k : Except RunError Unit → Prog} {cur : Option Str} (hk : ∀ r, (k r).Delivers d out t cur) :
    (updateModSteps p k).Delivers d out t cur := by
  intro o
  cases o with
  | none =>
    refine ⟨?_, hk _⟩
    rw [if_neg hp]
    refine delivers_writeParts hp _ (fun r => ?_) _
    cases r <;> exact hk _
  | some text =>
    simp only
    cases isPresent (fileStem p) (lines text) with
    | none => exact hk _
    | some b =>
      cases b
      · refine delivers_appendParts hp _ fun r => ?_
        cases r <;> exact hk _
      · exact hk _

theorem delivers_enterDirs (hm : ¬ IsModRs out) (ps : List Str) {k : Except RunError Str → Prog} {cur : Option Str} : ∀ o,
    (∀ r, (∀ dir, r = .ok dir → dir = ps.foldl joinPath o) → (k r).Delivers d out t cur) → (enterDirsSteps o ps k).Delivers d out t cur := by
  induction ps with
  | nil => intro o hk; exact hk _ fun dir h => (Except.ok.inj h).symm
  | cons p ps ih =>
    intro o hk b
    cases b with
    | true => exact ih _ hk
    | false =>
      intro b
      cases b with
      | false => exact hk _ fun dir h => by cases h
      | true =>
        simp only [if_true]
        refine delivers_updateMod (fun e => hm (by rw [← e]; exact isMod_modPath _)) fun r => ?_
        cases r with
        | error e => exact hk _ fun dir h => by cases h
        | ok u => exact ih _ hk

/-- What is always so for a run with output. -/
def Prog.Owes (d : Disk) (n : Nat) (j : Job) (p : Prog) (D : Disk) : Prop :=
  match j.out n d with
  | none => match p with
    | .done r => r ≠ .ok ()
    | .files k => ∀ fs, SameAs d fs → ∃ e, k fs = .done (.error e)
    | _ => False
  | some out => p.Delivers d out (j.text n d) (D.file out)

theorem owes_job {cut : Str → List Str × Str} (hcut : ∀ t, (cut t).1.flatten ++ (cut t).2 = t) (junk : Str) {n : Nat} {j : Job} (hd : NoRsImports d)
    (hj : ¬ IsRs j.inFile) (hn : j.noOutput = false) (D' : Disk) : (j.steps cut junk n).Owes d n j D' := by
  obtain ⟨k, hk, h⟩ := first_step cut junk (n := n) hd hj
  rw [hk]
  unfold Prog.Owes
  cases ho : j.out n d with
  | none =>
    intro fs hfs
    rcases h fs hfs with ⟨_, e, he⟩ | ⟨D, w, hD, _, he⟩
    · exact ⟨_, he⟩
    · unfold Job.out at ho; rw [hD] at ho; cases ho
  | some out =>
    intro fs hfs
    rcases h fs hfs with ⟨hD, _⟩ | ⟨D, w, hD, hw, he⟩
    · unfold Job.out at ho; rw [hD] at ho; cases ho
    have hout : j.out n d = some (outPath D.package j.outFile) := by unfold Job.out; rw [hD]; rfl
    cases ho.symm.trans hout
    have hm : ¬ IsModRs (outPath D.package j.outFile) := (C71_out hout).2
    rw [he]
    refine delivers_enterDirs hm _ _ fun r hr => ?_
    cases r with
    | error e => intro h; cases h
    | ok dir =>
      cases hr dir rfl
      simp only
      rw [hn]
      simp only [Bool.false_eq_true, if_false]
      intro a b
      show Prog.Delivers d _ _ (if (a || !b) = true then _ else _) _
      split
      · intro h; cases h
      · cases w with
        | error e =>
          refine ⟨?_, fun h => ?_⟩
          · exact ⟨fun h => (by cases h), fun h => (h ⟨_, rfl⟩).elim⟩
          · cases h
        | ok text =>
          refine ⟨?_, fun h => ?_⟩
          · show Prog.Delivers d _ _ (writeParts (outPath D.package j.outFile) 0 _ _) (if outPath D.package j.outFile = outPath D.package j.outFile then some [] else _)
            rw [if_pos rfl]
            refine delivers_writeOut (cut text.str).1 ?_ [] ?_
            · intro cur h; cases h
            refine delivers_updateMod (fun e => hm (by rw [← e]; exact isMod_modPath _)) fun r => ?_
            refine ⟨?_, fun h => (h ⟨_, rfl⟩).elim⟩
            intro _
            rw [hw text rfl]
            refine ⟨by simp, ?_⟩
            show (if outPath D.package j.outFile = outPath D.package j.outFile then some (writeAt ((some ([] ++ (cut text.str).1.flatten)).getD []) _ _) else _) = _
            rw [if_pos rfl, Option.getD_some, writeAt_end, List.nil_append, hcut]
          · cases h

/-! ## Turns -/

/-- One system call, which may fail, of a run that sticks to `W`. -/
theorem step_sticks {p : Prog} {D : Disk} (hD : SameSources d D) (hp : p.Sticks d W) (fails : Bool) :
    (p.step fails D).1.Sticks d W ∧ (∀ q, ¬ W q → (p.step fails D).2.file q = D.file q) ∧ ∀ q, D.dir q = true → (p.step fails D).2.dir q = true := by
  have put : ∀ (p t : Str) q, W p → ¬ W q → (D.put p t).file q = D.file q := fun p t q hp hq => if_neg fun e => hq (by rw [e]; exact hp)
  cases p with
  | done r => exact ⟨hp, fun _ _ => rfl, fun _ h => h⟩
  | files k => exact ⟨hp _ hD, fun _ _ => rfl, fun _ h => h⟩
  | exists_ p k => exact ⟨hp _, fun _ _ => rfl, fun _ h => h⟩
  | isDir p k => exact ⟨hp _, fun _ _ => rfl, fun _ h => h⟩
  | open_ p k => exact ⟨hp _, fun _ _ => rfl, fun _ h => h⟩
  | mkdirs p k =>
    cases fails
    · exact ⟨hp _, fun _ _ => rfl, fun q h => step_dirs (p := .mkdirs p k) h⟩
    · exact ⟨hp _, fun _ _ => rfl, fun _ h => h⟩
  | create p k =>
    cases fails
    · exact ⟨hp.2 _, fun q hq => put _ _ q hp.1 hq, fun _ h => h⟩
    · exact ⟨hp.2 _, fun _ _ => rfl, fun _ h => h⟩
  | write p pos s k =>
    cases fails
    · exact ⟨hp.2 _, fun q hq => put _ _ q hp.1 hq, fun _ h => h⟩
    · exact ⟨hp.2 _, fun _ _ => rfl, fun _ h => h⟩
  | append p s k =>
    cases fails
    · exact ⟨hp.2 _, fun q hq => put _ _ q hp.1 hq, fun _ h => h⟩
    · exact ⟨hp.2 _, fun _ _ => rfl, fun _ h => h⟩

theorem step_delivers {p : Prog} {D : Disk} (hD : SameSources d D) (hp : p.Delivers d out t (D.file out)) {fails : Bool} (hf : fails = true → ¬ p.Unheard) :
    (p.step fails D).1.Delivers d out t ((p.step fails D).2.file out) := by
  have put : ∀ (p s : Str) (x : Option Str), (if p = out then some s else D.file out) = (D.put p s).file out := by
    intro p s x
    show _ = if out = p then some s else D.file out
    by_cases h : p = out
    · rw [if_pos h, if_pos h.symm]
    · rw [if_neg h, if_neg fun e => h e.symm]
  cases p with
  | done r => exact hp
  | files k => exact hp _ hD
  | exists_ p k => exact hp _
  | isDir p k => exact hp _
  | open_ p k => exact hp _
  | mkdirs p k => cases fails <;> exact hp _
  | create p k =>
    cases fails
    · show (k true).Delivers d out t ((D.put p []).file out)
      rw [← put p [] none]; exact hp.1
    · exact hp.2
  | write p pos s k =>
    cases fails
    · show (k true).Delivers d out t ((D.put p (writeAt ((D.file p).getD []) pos s)).file out)
      rw [← put p _ none]
      have := hp.1
      by_cases h : p = out
      · subst h; exact this
      · rw [if_neg h] at this ⊢; exact this
    · exact hp.2 fun h => hf rfl h
  | append p s k =>
    cases fails
    · show (k true).Delivers d out t ((D.put p ((D.file p).getD [] ++ s)).file out)
      rw [← put p _ none]
      have := hp.1
      by_cases h : p = out
      · subst h; exact this
      · rw [if_neg h] at this ⊢; exact this
    · exact hp.2

theorem step_owes {n : Nat} {j : Job} {p : Prog} {D : Disk} (hD : SameSources d D) (hp : p.Owes d n j D) {fails : Bool} (hf : fails = true → ¬ p.Unheard) :
    (p.step fails D).1.Owes d n j (p.step fails D).2 := by
  unfold Prog.Owes at hp ⊢
  cases ho : j.out n d with
  | some out => rw [ho] at hp; exact step_delivers hD hp hf
  | none =>
    rw [ho] at hp
    simp only at hp ⊢
    cases p with
    | done r => exact hp
    | files k =>
      obtain ⟨e, he⟩ := hp _ hD
      show match k D.file with | .done r => r ≠ .ok () | .files k => _ | _ => False
      rw [he]
      intro h; cases h
    | _ => exact hp.elim

/-- What holds in every turn. -/
structure Held (n : Nat) (js : List Job) (d : Disk) (ps : List Prog) (D : Disk) : Prop where
  length : ps.length = js.length
  same : SameSources d D
  dirs : ∀ q, d.dir q = true → D.dir q = true
  files : ∀ q, ¬ IsModRs q → (∀ (i : Nat) (j : Job), js[i]? = some j → j.noOutput = false → j.out n d ≠ some q) → D.file q = d.file q
  sticks : ∀ (i : Nat) (j : Job) (p : Prog), js[i]? = some j → ps[i]? = some p → p.Sticks d fun p => IsModRs p ∨ (j.noOutput = false ∧ j.out n d = some p)

theorem held_start {cut : Str → List Str × Str} {junk : Str} {n : Nat} {js : List Job} (hd : NoRsImports d) (hj : ∀ j ∈ js, ¬ IsRs j.inFile) :
    Held n js d (js.map (·.steps cut junk n)) d where
  length := List.length_map _
  same := fun _ _ => rfl
  dirs := fun _ h => h
  files := fun _ _ _ => rfl
  sticks i j p hi hp := by
    rw [List.getElem?_map, hi] at hp
    cases hp
    exact sticks_job cut junk hd (hj j (List.mem_of_getElem? hi))

theorem held_step {n : Nat} {js : List Job} {ps : List Prog} {D : Disk} (h : Held n js d ps D) {i : Nat} {p : Prog} (hi : ps[i]? = some p) (fails : Bool) :
    Held n js d (ps.set i (p.step fails D).1) (p.step fails D).2 := by
  have hlt : i < ps.length := (List.getElem?_eq_some_iff.mp hi).1
  obtain ⟨j, hj⟩ : ∃ j, js[i]? = some j := ⟨js[i]'(h.length ▸ hlt), List.getElem?_eq_getElem _⟩
  obtain ⟨s1, s2, s3⟩ := step_sticks h.same (h.sticks i j p hj hi) fails
  refine ⟨by rw [List.length_set]; exact h.length, ?_, fun q hq => s3 q (h.dirs q hq), ?_, ?_⟩
  · intro q hq
    rw [s2 q fun hw => hw.elim (fun hm => hq (isMod_rs hm)) fun hw => hq (C71_out hw.2).1]
    exact h.same q hq
  · intro q hm hq
    rw [s2 q fun hw => hw.elim hm fun hw => hq i j hj hw.1 hw.2]
    exact h.files q hm hq
  · intro i' j' p' hj' hp'
    by_cases e : i' = i
    · subst e
      rw [List.getElem?_set_self hlt] at hp'
      cases hp'
      cases hj.symm.trans hj'
      exact s1
    · rw [List.getElem?_set_ne (fun x => e x.symm)] at hp'
      exact h.sticks i' j' p' hj' hp'

theorem held_turns {n : Nat} {js : List Job} (ts : List (Nat × Bool)) : ∀ {ps : List Prog} {D : Disk}, Held n js d ps D →
    Held n js d (turns (ps, D) ts).1 (turns (ps, D) ts).2 := by
  induction ts with
  | nil => intro ps D h; exact h
  | cons x ts ih =>
    intro ps D h
    obtain ⟨i, fails⟩ := x
    rw [turns]
    cases hi : ps[i]? with
    | none => simp only; exact ih h
    | some p => simp only; exact ih (held_step h hi fails)

theorem owes_turns {n : Nat} {js : List Job} (hdis : ∀ (i i' : Nat) (j j' : Job) (p : Str), i ≠ i' → js[i]? = some j → js[i']? = some j' → j'.noOutput = false →
    j.out n d = some p → j'.out n d ≠ some p) {i : Nat} {j : Job} (hj : js[i]? = some j) (ts : List (Nat × Bool)) : ∀ {ps : List Prog} {D : Disk}, Held n js d ps D → Heard (ps, D) ts →
    (∀ p, ps[i]? = some p → p.Owes d n j D) → ∀ p, (turns (ps, D) ts).1[i]? = some p → p.Owes d n j (turns (ps, D) ts).2 := by
  induction ts with
  | nil => intro ps D h hh hp; exact hp
  | cons x ts ih =>
    intro ps D h hh hp
    obtain ⟨i', fails⟩ := x
    rw [turns]
    rw [Heard] at hh
    cases hi : ps[i']? with
    | none => rw [hi] at hh; simp only; exact ih h hh hp
    | some q =>
      rw [hi] at hh
      simp only at hh ⊢
      refine ih (held_step h hi fails) hh.2 ?_
      have hlt : i' < ps.length := (List.getElem?_eq_some_iff.mp hi).1
      intro p hp'
      by_cases e : i' = i
      · subst e
        rw [List.getElem?_set_self hlt] at hp'
        cases hp'
        exact step_owes h.same (hp q hi) hh.1
      · rw [List.getElem?_set_ne e] at hp'
        have hp := hp p hp'
        obtain ⟨j', hj'⟩ : ∃ j', js[i']? = some j' := ⟨js[i']'(h.length ▸ hlt), List.getElem?_eq_getElem _⟩
        obtain ⟨_, s2, _⟩ := step_sticks h.same (h.sticks i' j' q hj' hi) fails
        unfold Prog.Owes at hp ⊢
        cases ho : j.out n d with
        | none => rw [ho] at hp; exact hp
        | some out =>
          rw [ho] at hp
          simp only at hp ⊢
          rw [s2 out fun hw => hw.elim (C71_out ho).2 fun hw => hdis i i' j j' out (fun x => e x.symm) hj hj' hw.1 ho hw.2]
          exact hp

/-! ## Every run comes to an end -/

/-- A run that gets all the turns. -/
theorem turns_one (p : Prog) : ∀ (D : Disk) (ps : List Prog) (i : Nat), ps[i]? = some p →
    ∃ m, turns (ps, D) (List.replicate m (i, false)) = (ps.set i (.done (p.run D).1), (p.run D).2) := by
  have go : ∀ (p p' : Prog) (D D' : Disk) (ps : List Prog) (i : Nat), ps[i]? = some p → p.step false D = (p', D') → p.run D = p'.run D' →
      (∀ (D : Disk) (ps : List Prog) (i : Nat), ps[i]? = some p' → ∃ m, turns (ps, D) (List.replicate m (i, false)) = (ps.set i (.done (p'.run D).1), (p'.run D).2)) →
      ∃ m, turns (ps, D) (List.replicate m (i, false)) = (ps.set i (.done (p.run D).1), (p.run D).2) := by
    intro p p' D D' ps i hi hs hr ih
    obtain ⟨m, hm⟩ := ih D' (ps.set i p') i (List.getElem?_set_self (List.getElem?_eq_some_iff.mp hi).1)
    refine ⟨m + 1, ?_⟩
    rw [List.replicate_succ, turns, hi]
    simp only
    rw [hs, hr]
    simp only
    rw [hm, List.set_set]
  induction p with
  | done r =>
    intro D ps i hi
    refine ⟨0, ?_⟩
    show (ps, D) = _
    rw [Prog.run]
    obtain ⟨h, e⟩ := List.getElem?_eq_some_iff.mp hi
    rw [← e, List.set_getElem_self]
  | files k ih => intro D ps i hi; exact go _ _ D _ ps i hi rfl rfl (ih _)
  | exists_ p k ih => intro D ps i hi; exact go _ _ D _ ps i hi rfl rfl (ih _)
  | isDir p k ih => intro D ps i hi; exact go _ _ D _ ps i hi rfl rfl (ih _)
  | mkdirs p k ih => intro D ps i hi; exact go _ _ D _ ps i hi rfl rfl (ih _)
  | open_ p k ih => intro D ps i hi; exact go _ _ D _ ps i hi rfl rfl (ih _)
  | create p k ih => intro D ps i hi; exact go _ _ D _ ps i hi rfl rfl (ih _)
  | write p pos s k ih => intro D ps i hi; exact go _ _ D _ ps i hi rfl rfl (ih _)
  | append p s k ih => intro D ps i hi; exact go _ _ D _ ps i hi rfl rfl (ih _)

theorem turns_append (ts ts' : List (Nat × Bool)) : ∀ s, turns s (ts ++ ts') = turns (turns s ts) ts' := by
  induction ts with
  | nil => intro s; cases s; rfl
  | cons x ts ih =>
    intro s
    obtain ⟨ps, D⟩ := s
    obtain ⟨i, fails⟩ := x
    rw [List.cons_append, turns, turns]
    cases ps[i]? with
    | none => simp only; exact ih _
    | some p => simp only; exact ih _

theorem all_end (ps : List Prog) : ∀ (D : Disk) (n : Nat), n ≤ ps.length → ∃ (sch : List Nat) (rs : List (Except RunError Unit)) (D' : Disk), rs.length = n ∧
    turns (ps, D) (sch.map fun i => (i, false)) = (rs.map .done ++ ps.drop n, D') := by
  intro D n
  induction n with
  | zero => intro _; exact ⟨[], [], D, rfl, rfl⟩
  | succ n ih =>
    intro hn
    obtain ⟨sch, rs, D1, hl, h1⟩ := ih (by omega)
    have hd : ps.drop n = ps[n] :: ps.drop (n + 1) := List.drop_eq_getElem_cons (by omega)
    have hi : (rs.map Prog.done ++ ps.drop n)[n]? = some ps[n] := by
      rw [List.getElem?_append_right (by rw [List.length_map]; omega), List.length_map, hl, Nat.sub_self, hd]
      rfl
    obtain ⟨m, hm⟩ := turns_one ps[n] D1 _ n hi
    refine ⟨sch ++ List.replicate m n, rs ++ [(ps[n].run D1).1], (ps[n].run D1).2, by simp [hl], ?_⟩
    rw [List.map_append, turns_append, h1, List.map_replicate, hm]
    congr 1
    rw [List.set_append, List.length_map, if_neg (by omega), hl, Nat.sub_self, hd, List.map_append, List.append_assoc]
    rfl

/-! ## `mod.rs` files that are there -/

/-- The file `p` is only added to, as long as it is there. -/
def Prog.Keeps (d : Disk) (p : Str) : Prog → Prop
  | .done _ => True
  | .files k => ∀ fs, SameAs d fs → (k fs).Keeps d p
  | .exists_ _ k => ∀ b, (k b).Keeps d p
  | .isDir _ k => ∀ b, (k b).Keeps d p
  | .mkdirs _ k => ∀ b, (k b).Keeps d p
  | .open_ q k => ∀ b, (q = p → b ≠ none) → (k b).Keeps d p
  | .create q k => q ≠ p ∧ ∀ b, (k b).Keeps d p
  | .write q _ _ k => q ≠ p ∧ ∀ b, (k b).Keeps d p
  | .append _ _ k => ∀ b, (k b).Keeps d p

variable {p : Str}

theorem keeps_writeParts {q : Str} (hq : q ≠ p) (ts : List Str) {k : Option Nat → Prog} (hk : ∀ r, (k r).Keeps d p) : ∀ pos, (writeParts q pos ts k).Keeps d p := by
  induction ts with
  | nil => intro pos; exact hk _
  | cons t ts ih =>
    intro pos
    refine ⟨hq, fun b => ?_⟩
    cases b
    · exact hk _
    · exact ih _

theorem keeps_appendParts (q : Str) (ts : List Str) {k : Bool → Prog} (hk : ∀ r, (k r).Keeps d p) : (appendParts q ts k).Keeps d p := by
  induction ts with
  | nil => exact hk _
  | cons t ts ih =>
    intro b
    cases b
    · exact hk _
    · exact ih

theorem keeps_updateMod (q : Str) {k : Except RunError Unit → Prog} (hk : ∀ r, (k r).Keeps d p) : (updateModSteps q k).Keeps d p := by
  intro o ho
  cases o with
  | none =>
    have hq : modPath q ≠ p := fun e => ho e rfl
    refine ⟨hq, fun b => ?_⟩
    cases b
    · exact hk _
    · refine keeps_writeParts hq _ (fun r => ?_) _
      cases r <;> exact hk _
  | some text =>
    simp only
    cases isPresent (fileStem q) (lines text) with
    | none => exact hk _
    | some b =>
      cases b
      · refine keeps_appendParts _ _ fun r => ?_
        cases r <;> exact hk _
      · exact hk _

theorem keeps_enterDirs (ps : List Str) {k : Except RunError Str → Prog} : ∀ out,
    (∀ r, (∀ dir, r = .ok dir → dir = ps.foldl joinPath out) → (k r).Keeps d p) → (enterDirsSteps out ps k).Keeps d p := by
  induction ps with
  | nil => intro out hk; exact hk _ fun dir h => (Except.ok.inj h).symm
  | cons q ps ih =>
    intro out hk b
    cases b with
    | true => exact ih _ hk
    | false =>
      intro b
      cases b with
      | false => exact hk _ fun dir h => by cases h
      | true =>
        simp only [if_true]
        refine keeps_updateMod _ fun r => ?_
        cases r with
        | error e => exact hk _ fun dir h => by cases h
        | ok u => exact ih _ hk

theorem keeps_job (cut : Str → List Str × Str) (junk : Str) {n : Nat} {j : Job} (hd : NoRsImports d) (hj : ¬ IsRs j.inFile) (hp : IsModRs p) :
    (j.steps cut junk n).Keeps d p := by
  obtain ⟨k, hk, h⟩ := first_step cut junk (n := n) hd hj
  rw [hk]
  intro fs hfs
  rcases h fs hfs with ⟨_, e, he⟩ | ⟨D, w, hD, _, he⟩
  · rw [he]; trivial
  · rw [he]
    have hout : j.out n d = some (outPath D.package j.outFile) := by unfold Job.out; rw [hD]; rfl
    have hne : outPath D.package j.outFile ≠ p := fun e => (C71_out hout).2 (by rw [e]; exact hp)
    refine keeps_enterDirs _ _ fun r hr => ?_
    cases r with
    | error e => trivial
    | ok dir =>
      cases hr dir rfl
      simp only
      cases hn : j.noOutput with
      | true => trivial
      | false =>
        simp only [Bool.false_eq_true, if_false]
        intro a b
        show Prog.Keeps d _ (if (a || !b) = true then _ else _)
        split
        · trivial
        · cases w with
          | error e =>
            refine ⟨hne, fun b => ?_⟩
            cases b
            · trivial
            · exact ⟨hne, fun _ => trivial⟩
          | ok t =>
            refine ⟨hne, fun b => ?_⟩
            cases b
            · trivial
            · refine keeps_writeParts hne _ (fun r => ?_) _
              cases r with
              | none => trivial
              | some pos => exact keeps_updateMod _ fun r => ⟨hne, fun _ => trivial⟩

theorem step_keeps {q : Prog} {D : Disk} (hD : SameSources d D) {text : Str} (ht : D.file p = some text) (hq : q.Keeps d p) (fails : Bool) :
    (q.step fails D).1.Keeps d p ∧ ∃ added, (q.step fails D).2.file p = some (text ++ added) := by
  have same : ∃ added, D.file p = some (text ++ added) := ⟨[], by rw [ht, List.append_nil]⟩
  have put : ∀ (q t : Str), q ≠ p → ∃ added, (D.put q t).file p = some (text ++ added) := by
    intro q t hq
    refine ⟨[], ?_⟩
    rw [List.append_nil, ← ht]
    exact if_neg fun e => hq e.symm
  cases q with
  | done r => exact ⟨hq, same⟩
  | files k => exact ⟨hq _ hD, same⟩
  | exists_ q k => exact ⟨hq _, same⟩
  | isDir q k => exact ⟨hq _, same⟩
  | open_ q k => exact ⟨hq _ (by rintro rfl; rw [ht]; simp), same⟩
  | mkdirs q k => cases fails <;> exact ⟨hq _, same⟩
  | create q k =>
    cases fails
    · exact ⟨hq.2 _, put _ _ hq.1⟩
    · exact ⟨hq.2 _, same⟩
  | write q pos s k =>
    cases fails
    · exact ⟨hq.2 _, put _ _ hq.1⟩
    · exact ⟨hq.2 _, same⟩
  | append q s k =>
    cases fails
    · refine ⟨hq _, ?_⟩
      by_cases e : q = p
      · subst e
        refine ⟨s, ?_⟩
        show (D.put q ((D.file q).getD [] ++ s)).file q = _
        rw [put_file, ht]; rfl
      · exact put _ _ e
    · exact ⟨hq _, same⟩

theorem kept_turns_aux {n : Nat} {js : List Job} (ts : List (Nat × Bool)) : ∀ {ps : List Prog} {D : Disk}, Held n js d ps D → (∀ q ∈ ps, q.Keeps d p) →
    ∀ text, D.file p = some text → ∃ added, (turns (ps, D) ts).2.file p = some (text ++ added) := by
  induction ts with
  | nil => intro ps D _ _ text h; exact ⟨[], by rw [List.append_nil]; exact h⟩
  | cons x ts ih =>
    intro ps D h hk text ht
    obtain ⟨i, fails⟩ := x
    rw [turns]
    cases hi : ps[i]? with
    | none => simp only; exact ih h hk text ht
    | some q =>
      simp only
      obtain ⟨s1, a, s2⟩ := step_keeps h.same ht (hk q (List.mem_of_getElem? hi)) fails
      obtain ⟨b, hb⟩ := ih (held_step h hi fails) (fun q' hq' => by
        rcases List.mem_or_eq_of_mem_set hq' with h | rfl
        · exact hk _ h
        · exact s1) _ s2
      exact ⟨a ++ b, by rw [hb, List.append_assoc]⟩

theorem kept_turns {cut : Str → List Str × Str} {junk : Str} {n : Nat} {js : List Job} (hd : NoRsImports d) (hj : ∀ j ∈ js, ¬ IsRs j.inFile) (hp : IsModRs p)
    (ts : List (Nat × Bool)) (text : Str) (ht : d.file p = some text) : ∃ added, (turns (js.map (·.steps cut junk n), d) ts).2.file p = some (text ++ added) :=
  kept_turns_aux ts (held_start hd hj) (fun q hq => by
    obtain ⟨j, hj', rfl⟩ := List.mem_map.mp hq
    exact keeps_job cut junk hd (hj j hj') hp) text ht

/-! ## Failing calls are reported -/

/-- Whatever the answers of the system, the run does not succeed. -/
def Prog.Doomed : Prog → Prop
  | .done r => r ≠ .ok ()
  | .files k => ∀ b, (k b).Doomed
  | .exists_ _ k => ∀ b, (k b).Doomed
  | .isDir _ k => ∀ b, (k b).Doomed
  | .mkdirs _ k => ∀ b, (k b).Doomed
  | .open_ _ k => ∀ b, (k b).Doomed
  | .create _ k => ∀ b, (k b).Doomed
  | .write _ _ _ k => ∀ b, (k b).Doomed
  | .append _ _ k => ∀ b, (k b).Doomed

/-- Whatever the answers of the system, if one is that a call failed (and it is looked at), the run does not succeed. -/
def Prog.Strict : Prog → Prop
  | .done _ => True
  | .files k => ∀ b, (k b).Strict
  | .exists_ _ k => ∀ b, (k b).Strict
  | .isDir _ k => ∀ b, (k b).Strict
  | .mkdirs _ k => (∀ b, (k b).Strict) ∧ (k false).Doomed
  | .open_ _ k => ∀ b, (k b).Strict
  | .create _ k => (∀ b, (k b).Strict) ∧ (k false).Doomed
  | .write _ _ _ k => (∀ b, (k b).Strict) ∧ ((¬ ∃ r, k = fun _ => .done r) → (k false).Doomed)
  | .append _ _ k => (∀ b, (k b).Strict) ∧ (k false).Doomed

theorem strict_writeParts (q : Str) (ts : List Str) {k : Option Nat → Prog} (hk : ∀ r, (k r).Strict) (hn : (k none).Doomed) : ∀ pos, (writeParts q pos ts k).Strict := by
  induction ts with
  | nil => intro pos; exact hk _
  | cons t ts ih =>
    intro pos
    refine ⟨fun b => ?_, fun _ => hn⟩
    cases b
    · exact hk _
    · exact ih _

theorem strict_appendParts (q : Str) (ts : List Str) {k : Bool → Prog} (hk : ∀ r, (k r).Strict) (hn : (k false).Doomed) : (appendParts q ts k).Strict := by
  induction ts with
  | nil => exact hk _
  | cons t ts ih =>
    refine ⟨fun b => ?_, hn⟩
    cases b
    · exact hk _
    · exact ih

theorem strict_updateMod (q : Str) {k : Except RunError Unit → Prog} (hk : ∀ r, (k r).Strict) (hn : ∀ e, (k (.error e)).Doomed) : (updateModSteps q k).Strict := by
  intro o
  cases o with
  | none =>
    refine ⟨fun b => ?_, hn _⟩
    cases b
    · exact hk _
    · refine strict_writeParts _ _ (fun r => ?_) (hn _) _
      cases r <;> exact hk _
  | some text =>
    simp only
    cases isPresent (fileStem q) (lines text) with
    | none => exact hk _
    | some b =>
      cases b
      · refine strict_appendParts _ _ (fun r => ?_) (hn _)
        cases r <;> exact hk _
      · exact hk _

theorem strict_enterDirs (ps : List Str) {k : Except RunError Str → Prog} (hk : ∀ r, (k r).Strict) (hn : ∀ e, (k (.error e)).Doomed) : ∀ out, (enterDirsSteps out ps k).Strict := by
  induction ps with
  | nil => intro out; exact hk _
  | cons q ps ih =>
    intro out b
    cases b with
    | true => exact ih _
    | false =>
      refine ⟨fun b => ?_, hn _⟩
      cases b with
      | false => exact hk _
      | true =>
        simp only [if_true]
        refine strict_updateMod _ (fun r => ?_) fun e => hn e
        cases r with
        | error e => exact hk _
        | ok u => exact ih _

theorem strict_job (cut : Str → List Str × Str) (junk : Str) (n : Nat) (j : Job) : (j.steps cut junk n).Strict := by
  intro fs
  cases hc : compileFile fs j.search (typePath j.cfg) j.cfg n j.inFile with
  | error e => simp only [hc]; trivial
  | ok D =>
    simp only [hc]
    refine strict_enterDirs _ (fun r => ?_) ?_ _
    rotate_left
    · intro e h; cases h
    cases r with
    | error e => trivial
    | ok dir =>
      simp only
      cases hn : j.noOutput with
      | true => trivial
      | false =>
        simp only [Bool.false_eq_true, if_false]
        intro a b
        show Prog.Strict (if (a || !b) = true then _ else _)
        split
        · trivial
        · cases (D.printed j.cfg).write j.cfg (splitSlash j.inFile).2 (servicesOf ((fs j.inFile).getD [])) with
          | error e =>
            refine ⟨fun b => ?_, fun h => by cases h⟩
            cases b
            · trivial
            · exact ⟨fun _ => trivial, fun h => (h ⟨_, rfl⟩).elim⟩
          | ok t =>
            refine ⟨fun b => ?_, fun h => by cases h⟩
            cases b
            · trivial
            · refine strict_writeParts _ _ (fun r => ?_) ?_ _
              rotate_left
              · intro h; cases h
              cases r with
              | none => trivial
              | some pos => exact strict_updateMod _ (fun r => ⟨fun _ => trivial, fun h => (h ⟨_, rfl⟩).elim⟩) fun e b h => by cases h

theorem step_strict {q : Prog} {D : Disk} (hq : q.Strict) (fails : Bool) : (q.step fails D).1.Strict := by
  cases q with
  | done r => exact hq
  | files k => exact hq _
  | exists_ q k => exact hq _
  | isDir q k => exact hq _
  | open_ q k => exact hq _
  | mkdirs q k => cases fails <;> exact hq.1 _
  | create q k => cases fails <;> exact hq.1 _
  | write q pos s k => cases fails <;> exact hq.1 _
  | append q s k => cases fails <;> exact hq.1 _

theorem step_doomed {q : Prog} {D : Disk} (hq : q.Doomed) (fails : Bool) : (q.step fails D).1.Doomed := by
  cases q with
  | done r => exact hq
  | files k => exact hq _
  | exists_ q k => exact hq _
  | isDir q k => exact hq _
  | open_ q k => exact hq _
  | mkdirs q k => cases fails <;> exact hq _
  | create q k => cases fails <;> exact hq _
  | write q pos s k => cases fails <;> exact hq _
  | append q s k => cases fails <;> exact hq _

theorem fail_doomed {q : Prog} {D : Disk} (hq : q.Strict) (hc : q.CanFail) (hu : ¬ q.Unheard) : (q.step true D).1.Doomed := by
  cases q with
  | mkdirs q k => exact hq.2
  | create q k => exact hq.2
  | write q pos s k => exact hq.2 hu
  | append q s k => exact hq.2
  | _ => exact hc.elim

/-- A property of a run that every call preserves. -/
theorem turns_keep {P : Prog → Prop} (hP : ∀ q D fails, P q → P (Prog.step fails D q).1) (i : Nat) (ts : List (Nat × Bool)) : ∀ {ps : List Prog} {D : Disk},
    (∀ q, ps[i]? = some q → P q) → ∀ q, (turns (ps, D) ts).1[i]? = some q → P q := by
  induction ts with
  | nil => intro ps D h; exact h
  | cons x ts ih =>
    intro ps D h
    obtain ⟨i', fails⟩ := x
    rw [turns]
    cases hi : ps[i']? with
    | none => simp only; exact ih h
    | some q =>
      simp only
      refine ih fun p hp => ?_
      have hlt : i' < ps.length := (List.getElem?_eq_some_iff.mp hi).1
      by_cases e : i' = i
      · subst e
        rw [List.getElem?_set_self hlt] at hp
        cases hp
        exact hP _ _ _ (h q hi)
      · rw [List.getElem?_set_ne e] at hp
        exact h p hp

end QP.Pbrs
