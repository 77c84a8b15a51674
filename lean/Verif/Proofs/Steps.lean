import Verif.Spec.Parallel
import Verif.Props.Run
set_option linter.unusedVariables false
/-!
# Runs of pb-rs, system call by system call: proofs
-/

namespace QP.Pbrs
open Parse

/-! ## A run that is alone -/

theorem put_self {d : Disk} {p t : Str} (h : d.file p = some t) : d.put p t = d := by
  refine Disk.ext' (fun q => ?_) rfl
  show (if q = p then some t else d.file q) = d.file q
  split
  · rename_i e; rw [e, h]
  · rfl

theorem put_comm (d : Disk) {p q : Str} (h : p ≠ q) (t u : Str) : (d.put p t).put q u = (d.put q u).put p t := by
  refine Disk.ext' (fun x => ?_) rfl
  show (if x = q then some u else if x = p then some t else d.file x) = if x = p then some t else if x = q then some u else d.file x
  by_cases h1 : x = q
  · subst h1
    rw [if_pos rfl, if_neg (fun e => h e.symm), if_pos rfl]
  · rw [if_neg h1, if_neg h1]

theorem writeAt_end (old t : Str) : writeAt old old.length t = old ++ t := by
  unfold writeAt
  rw [List.take_length, Nat.sub_self, List.replicate_zero, List.append_nil, List.drop_eq_nil_of_le (by omega), List.append_nil]

theorem run_writeParts (d : Disk) (p : Str) (ts : List Str) (k : Option Nat → Prog) : ∀ c : Str,
    (writeParts p c.length ts k).run (d.put p c) = (k (some (c ++ ts.flatten).length)).run (d.put p (c ++ ts.flatten)) := by
  induction ts with
  | nil => intro c; rw [writeParts, List.flatten_nil, List.append_nil]
  | cons t ts ih =>
    intro c
    rw [writeParts, Prog.run, put_file, Option.getD_some, writeAt_end, put_put]
    have := ih (c ++ t)
    rw [List.length_append] at this
    rw [if_pos rfl, this, List.flatten_cons, List.append_assoc]

theorem run_appendParts (d : Disk) (p : Str) (ts : List Str) (k : Bool → Prog) : ∀ c : Str,
    (appendParts p ts k).run (d.put p c) = (k true).run (d.put p (c ++ ts.flatten)) := by
  induction ts with
  | nil => intro c; rw [appendParts, List.flatten_nil, List.append_nil]
  | cons t ts ih =>
    intro c
    rw [appendParts, Prog.run, put_file, Option.getD_some, put_put, if_pos rfl, ih (c ++ t), List.flatten_cons, List.append_assoc]

theorem run_updateMod (d : Disk) (p : Str) (k : Except RunError Unit → Prog) : (updateModSteps p k).run d =
    match d.updateMod p with | none => (k (.error .panic)).run d | some d' => (k (.ok ())).run d' := by
  unfold updateModSteps Disk.updateMod updateModFile
  rw [Prog.run]
  cases h : d.file (modPath p) with
  | none =>
    simp only
    rw [Prog.run, if_pos rfl]
    have := run_writeParts d (modPath p) ([MAGIC_HEADER, ['\n']] ++ modParts (fileStem p)) (fun r => if r.isSome then k (.ok ()) else k (.error .io)) []
    rw [List.length_nil] at this
    rw [this]
    refine congrArg (fun t => (k (.ok ())).run (d.put (modPath p) t)) ?_
    simp only [modParts, modLine, List.nil_append, List.flatten_append, List.flatten_cons, List.flatten_nil, List.append_assoc, List.append_nil, List.cons_append]
  | some text =>
    simp only
    cases hp : isPresent (fileStem p) (lines text) with
    | none => rfl
    | some b =>
      cases b with
      | true => simp only; rw [put_self h]
      | false =>
        simp only
        have := run_appendParts d (modPath p) (modParts (fileStem p)) (fun ok => if ok then k (.ok ()) else k (.error .io)) text
        rw [put_self h] at this
        rw [this, if_pos rfl]
        refine congrArg (fun t => (k (.ok ())).run (d.put (modPath p) (text ++ t))) ?_
        simp only [modParts, modLine, List.flatten_cons, List.flatten_nil, List.append_nil, List.append_assoc]

theorem run_enterDirs (ps : List Str) (k : Except RunError Str → Prog) : ∀ (d : Disk) (out : Str), (enterDirsSteps out ps k).run d =
    (k (enterDirs d out ps).1).run (enterDirs d out ps).2 := by
  induction ps with
  | nil => intro d out; rfl
  | cons p ps ih =>
    intro d out
    rw [enterDirsSteps, enterDirs, Prog.run]
    cases he : d.exists_ (joinPath out p) with
    | true => simp only [if_true]; exact ih d _
    | false =>
      simp only [Bool.false_eq_true, if_false]
      rw [Prog.run, if_pos rfl, run_updateMod]
      cases hu : (d.mkdirs (joinPath out p)).updateMod (joinPath out p) with
      | none => rfl
      | some d' => simp only; exact ih d' _

theorem updateMod_put {d : Disk} {p t : Str} (h : modPath p ≠ p) : (d.put p t).updateMod p = (d.updateMod p).map fun d' => d'.put p t := by
  unfold Disk.updateMod
  have : (d.put p t).file (modPath p) = d.file (modPath p) := if_neg h
  rw [this]
  cases hu : updateModFile (d.file (modPath p)) (fileStem p) with
  | none => rfl
  | some o =>
    cases o with
    | none => rfl
    | some text => simp only [Option.map_some]; rw [put_comm d (fun e => h e.symm)]

theorem run_writeOut {cut : Str → List Str × Str} {out text : Str} (hc : (cut text).1.flatten ++ (cut text).2 = text) (h : modPath out ≠ out) (d : Disk) :
    (writeOut cut out text).run d =
    match (d.put out text).updateMod out with | none => (.error .panic, d.put out text) | some d => (.ok (), d) := by
  unfold writeOut
  rw [Prog.run, if_pos rfl]
  refine (run_writeParts d out (cut text).1 _ []).trans ?_
  rw [List.nil_append]
  simp only
  rw [run_updateMod, updateMod_put h, updateMod_put h]
  cases hu : d.updateMod out with
  | none =>
    simp only [Option.map_none]
    rw [Prog.run, put_file, Option.getD_some, writeAt_end, put_put, hc, Prog.run]
  | some d' =>
    simp only [Option.map_some]
    rw [Prog.run, put_file, Option.getD_some, writeAt_end, put_put, hc, Prog.run]

/-- A run that is alone and without trouble does what `Model/Pbrs/Run.lean` says. -/
theorem solo {cut : Str → List Str × Str} (hc : ∀ t, (cut t).1.flatten ++ (cut t).2 = t) (junk : Str) (n : Nat) (j : Job) (d : Disk) :
    (j.steps cut junk n).run d = writeProto junk n j d := by
  unfold Job.steps writeProto
  rw [Prog.run]
  cases hcf : compileFile d.file j.search (typePath j.cfg) j.cfg n j.inFile with
  | error e => rfl
  | ok D =>
    have hD : j.compiled n d = some (D.printed j.cfg) := by unfold Job.compiled; rw [hcf]
    have hP := compiled_package hD
    simp only
    rw [run_enterDirs]
    rcases hed : enterDirs d (parentPath j.outFile) (packageDirs (D.printed j.cfg).package) with ⟨r, d1⟩
    cases r with
    | error e => rfl
    | ok dir =>
      simp only
      cases hn : j.noOutput with
      | true => rfl
      | false =>
        simp only [Bool.false_eq_true, if_false]
        rw [Prog.run, Prog.run]
        cases hb : d1.isDir (joinPath dir (outName (D.printed j.cfg).package j.outFile)) || !d1.isDir (parentPath (joinPath dir (outName (D.printed j.cfg).package j.outFile))) with
        | true => rfl
        | false =>
          simp only [Bool.false_eq_true, if_false]
          cases hw : (D.printed j.cfg).write j.cfg (splitSlash j.inFile).2 (servicesOf ((d.file j.inFile).getD [])) with
          | error e =>
            simp only
            rw [Prog.run, if_pos rfl, Prog.run, put_file, put_put, Prog.run]
            simp only [Option.getD_some]
            rw [show writeAt [] 0 junk = junk from writeAt_end [] junk]
          | ok text =>
            simp only
            refine run_writeOut (hc _) ?_ d1
            intro e
            exact out_not_mod hP dir (e ▸ isMod_modPath _)

/-! ## Runs that do not meet -/

/-- What is read of the `.proto` files does not depend on Rust source files. -/
def Prog.Steady : Prog → Disk → Prop
  | .done _, _ => True
  | .files k, d => (∀ fs : Files, (∀ q, ¬ IsRs q → fs q = d.file q) → k fs = k d.file) ∧ (k d.file).Steady d
  | .exists_ p k, d => (k (d.exists_ p)).Steady d
  | .isDir p k, d => (k (d.isDir p)).Steady d
  | .mkdirs p k, d => (k true).Steady (d.mkdirs p)
  | .open_ p k, d => (k (d.file p)).Steady d
  | .create p k, d => (k true).Steady (d.put p [])
  | .write p pos t k, d => (k true).Steady (d.put p (writeAt ((d.file p).getD []) pos t))
  | .append p t k, d => (k true).Steady (d.put p ((d.file p).getD [] ++ t))

/-- One step of a run that is alone. -/
theorem step_solo (p : Prog) (d : Disk) (hs : p.Steady d) : (p.step false d).1.run (p.step false d).2 = p.run d ∧ (p.step false d).1.Steady (p.step false d).2 ∧
    (∀ x, (p.step false d).1.looks (p.step false d).2 x → p.looks d x) ∧ (∀ x, (p.step false d).1.changes (p.step false d).2 x → p.changes d x) := by
  cases p with
  | done r => exact ⟨rfl, hs, fun x h => h, fun x h => h⟩
  | files k => exact ⟨rfl, hs.2, fun x h => Or.inr h, fun x h => h⟩
  | exists_ p k => exact ⟨rfl, hs, fun x h => Or.inr h, fun x h => h⟩
  | isDir p k => exact ⟨rfl, hs, fun x h => Or.inr h, fun x h => h⟩
  | mkdirs p k => exact ⟨rfl, hs, fun x h => h, fun x h => Or.inr h⟩
  | open_ p k => exact ⟨rfl, hs, fun x h => Or.inr h, fun x h => h⟩
  | create p k => exact ⟨rfl, hs, fun x h => h, fun x h => Or.inr h⟩
  | write p pos t k => exact ⟨rfl, hs, fun x h => h, fun x h => Or.inr h⟩
  | append p t k => exact ⟨rfl, hs, fun x h => h, fun x h => Or.inr h⟩

theorem agree_put {d D : Disk} {p t : Str} {x : Item} (h : x ≠ .file p → Agree D d x) : Agree (D.put p t) (d.put p t) x := by
  cases x with
  | file q =>
    show (if q = p then some t else D.file q) = if q = p then some t else d.file q
    split
    · rfl
    · rename_i hn; exact h fun e => hn (Item.file.inj e)
  | dir q => exact h fun e => by cases e

theorem put_agree {d : Disk} {p t : Str} {x : Item} (h : x ≠ .file p) : Agree (d.put p t) d x := by
  cases x with
  | file q =>
    show (if q = p then some t else d.file q) = d.file q
    rw [if_neg fun e => h (by rw [e])]
  | dir q => rfl

theorem agree_mkdirs {d D : Disk} {p : Str} {x : Item} (h : Agree D d x) : Agree (D.mkdirs p) (d.mkdirs p) x := by
  cases x with
  | file q => exact h
  | dir q =>
    have h : D.dir q = d.dir q := h
    show (D.dir q || q == p || (q ++ ['/']).isPrefixOf p) = (d.dir q || q == p || (q ++ ['/']).isPrefixOf p)
    rw [h]

/-- The same step on a disk that looks the same to the run. -/
theorem step_same {p : Prog} {d D : Disk} (hs : p.Steady d) (hl : ∀ x, p.looks d x → Agree D d x) (hc : ∀ x, p.changes d x → Agree D d x) :
    (p.step false D).1 = (p.step false d).1 ∧ ∀ x, Agree D d x → Agree (p.step false D).2 (p.step false d).2 x := by
  cases p with
  | done r => exact ⟨rfl, fun x h => h⟩
  | files k => exact ⟨hs.1 _ fun q hq => hl _ (Or.inl ⟨q, hq, rfl⟩), fun x h => h⟩
  | exists_ p k =>
    refine ⟨?_, fun x h => h⟩
    have h1 : D.file p = d.file p := hl (.file p) (Or.inl (Or.inl rfl))
    have h2 : D.dir p = d.dir p := hl (.dir p) (Or.inl (Or.inr rfl))
    show k (D.exists_ p) = k (d.exists_ p)
    unfold Disk.exists_ Disk.isDir
    rw [h1, h2]
  | isDir p k =>
    refine ⟨?_, fun x h => h⟩
    have h2 : D.dir p = d.dir p := hl (.dir p) (Or.inl rfl)
    show k (D.isDir p) = k (d.isDir p)
    unfold Disk.isDir
    rw [h2]
  | mkdirs p k => exact ⟨rfl, fun x h => agree_mkdirs h⟩
  | open_ p k =>
    refine ⟨?_, fun x h => h⟩
    have h1 : D.file p = d.file p := hl (.file p) (Or.inl rfl)
    show k (D.file p) = k (d.file p)
    rw [h1]
  | create p k => exact ⟨rfl, fun x h => agree_put fun _ => h⟩
  | write p pos t k =>
    refine ⟨rfl, fun x h => ?_⟩
    have h1 : D.file p = d.file p := hc (.file p) (Or.inl rfl)
    show Agree (D.put p (writeAt ((D.file p).getD []) pos t)) _ x
    rw [h1]
    exact agree_put fun _ => h
  | append p t k =>
    refine ⟨rfl, fun x h => ?_⟩
    have h1 : D.file p = d.file p := hc (.file p) (Or.inl rfl)
    show Agree (D.put p ((D.file p).getD [] ++ t)) _ x
    rw [h1]
    exact agree_put fun _ => h

/-- A step changes what it may change only, if all directories of `d` are in `D`. -/
theorem step_else {p : Prog} {d D : Disk} {x : Item} (hx : ¬ p.changes d x) (hd : ∀ q, x = .dir q → d.dir q = true → D.dir q = true) : Agree (p.step false D).2 D x := by
  have refl : Agree D D x := by cases x <;> rfl
  cases p with
  | done r => exact refl
  | files k => exact refl
  | exists_ p k => exact refl
  | isDir p k => exact refl
  | open_ p k => exact refl
  | mkdirs p k =>
    cases x with
    | file q => rfl
    | dir q =>
      show (D.dir q || q == p || (q ++ ['/']).isPrefixOf p) = D.dir q
      cases hD : D.dir q with
      | true => rfl
      | false =>
        have h0 : d.dir q = false := by
          cases h : d.dir q with
          | false => rfl
          | true => rw [hd q rfl h] at hD; cases hD
        cases h1 : (q == p || (q ++ ['/']).isPrefixOf p) with
        | false => rw [Bool.false_or]; exact h1
        | true =>
          refine (hx (Or.inl ⟨q, rfl, h0, ?_⟩)).elim
          show (d.dir q || q == p || (q ++ ['/']).isPrefixOf p) = true
          rw [h0, Bool.false_or]
          exact h1
  | create p k => exact put_agree fun e => hx (Or.inl e)
  | write p pos t k => exact put_agree fun e => hx (Or.inl e)
  | append p t k => exact put_agree fun e => hx (Or.inl e)

theorem step_dirs {p : Prog} {D : Disk} {q : Str} (h : D.dir q = true) : (p.step false D).2.dir q = true := by
  cases p with
  | mkdirs p k =>
    show (D.dir q || q == p || (q ++ ['/']).isPrefixOf p) = true
    rw [h]; rfl
  | _ => exact h

/-- The state of several runs. -/
structure Apart (P : List Prog) (d : Disk) (ps : List Prog) (D : Disk) (ds : Nat → Disk) : Prop where
  length : ps.length = P.length
  run : ∀ (i : Nat) (p p0 : Prog), ps[i]? = some p → P[i]? = some p0 → p.run (ds i) = p0.run d ∧ p.Steady (ds i) ∧ (∀ x, p.looks (ds i) x → p0.looks d x) ∧
    (∀ x, p.changes (ds i) x → p0.changes d x) ∧ (∀ x, p0.looks d x ∨ p0.changes d x → Agree D (ds i) x) ∧ ∀ x, ¬ p0.changes d x → Agree (ds i) d x
  rest : ∀ x, (∀ (i : Nat) (p0 : Prog), P[i]? = some p0 → ¬ p0.changes d x) → Agree D d x
  dirs : ∀ q, d.dir q = true → D.dir q = true

theorem Agree.refl (d : Disk) (x : Item) : Agree d d x := by cases x <;> rfl

theorem Agree.trans {a b c : Disk} {x : Item} (h : Agree a b x) (h' : Agree b c x) : Agree a c x := by
  cases x
  · exact Eq.trans h h'
  · exact Eq.trans h h'

theorem Agree.symm {a b : Disk} {x : Item} (h : Agree a b x) : Agree b a x := by
  cases x
  · exact Eq.symm h
  · exact Eq.symm h

theorem apart_start {P : List Prog} {d : Disk} (hs : ∀ p ∈ P, p.Steady d) : Apart P d P d (fun _ => d) where
  length := rfl
  run i p p0 h h0 := by
    cases h.symm.trans h0
    exact ⟨rfl, hs p (List.mem_of_getElem? h), fun x h => h, fun x h => h, fun x _ => .refl d x, fun x _ => .refl d x⟩
  rest x _ := .refl d x
  dirs q h := h

theorem apart_step {P : List Prog} {d : Disk} (hP : NeverMeet P d) {ps : List Prog} {D : Disk} {ds : Nat → Disk} (h : Apart P d ps D ds) {i : Nat} {p : Prog}
    (hi : ps[i]? = some p) : ∃ ds', Apart P d (ps.set i (p.step false D).1) (p.step false D).2 ds' := by
  have hlt : i < ps.length := (List.getElem?_eq_some_iff.mp hi).1
  obtain ⟨p0, h0⟩ : ∃ p0, P[i]? = some p0 := ⟨P[i]'(h.length ▸ hlt), List.getElem?_eq_getElem _⟩
  obtain ⟨r1, r2, r3, r4, r5, r6⟩ := h.run i p p0 hi h0
  obtain ⟨s1, s2, s3, s4⟩ := step_solo p (ds i) r2
  obtain ⟨t1, t2⟩ := step_same r2 (fun x hx => r5 x (Or.inl (r3 x hx))) (fun x hx => r5 x (Or.inr (r4 x hx)))
  -- what other runs see
  have other : ∀ x, ¬ p0.changes d x → Agree (p.step false D).2 D x := by
    intro x hx
    refine step_else (fun hc => hx (r4 x hc)) fun q e hq => ?_
    subst e
    have : (ds i).dir q = d.dir q := r6 _ hx
    exact h.dirs q (this ▸ hq)
  have own : ∀ x, ¬ p0.changes d x → Agree (p.step false (ds i)).2 (ds i) x := fun x hx => step_else (fun hc => hx (r4 x hc)) fun q _ hq => hq
  refine ⟨fun j => if j = i then (p.step false (ds i)).2 else ds j, ?_, ?_, ?_, ?_⟩
  · rw [List.length_set]; exact h.length
  · intro j q q0 hj hj0
    by_cases hji : j = i
    · subst hji
      rw [List.getElem?_set_self hlt] at hj
      cases hj
      cases h0.symm.trans hj0
      rw [if_pos rfl, t1]
      refine ⟨s1.trans r1, s2, fun x hx => r3 x (s3 x hx), fun x hx => r4 x (s4 x hx), fun x hx => t2 x (r5 x hx), fun x hx => (own x hx).trans (r6 x hx)⟩
    · rw [List.getElem?_set_ne (fun e => hji e.symm)] at hj
      obtain ⟨q1, q2, q3, q4, q5, q6⟩ := h.run j q q0 hj hj0
      rw [if_neg hji]
      refine ⟨q1, q2, q3, q4, fun x hx => ?_, q6⟩
      refine (other x fun hc => ?_).trans (q5 x hx)
      have := hP i j p0 q0 (fun e => hji e.symm) h0 hj0 x hc
      exact hx.elim this.1 this.2
  · intro x hx
    exact (other x (hx i p0 h0)).trans (h.rest x hx)
  · intro q hq
    exact step_dirs (h.dirs q hq)

/-- Runs that do not meet end as if each of them had been alone. -/
theorem apart_ends {P : List Prog} {d : Disk} (hP : NeverMeet P d) : ∀ (sch : List Nat) {ps : List Prog} {D : Disk} {ds : Nat → Disk}, Apart P d ps D ds →
    ∃ ds', Apart P d (turns (ps, D) (sch.map fun i => (i, false))).1 (turns (ps, D) (sch.map fun i => (i, false))).2 ds' := by
  intro sch
  induction sch with
  | nil => intro ps D ds h; exact ⟨ds, h⟩
  | cons i sch ih =>
    intro ps D ds h
    rw [List.map_cons, turns]
    cases hi : ps[i]? with
    | none => simp only; exact ih h
    | some p =>
      simp only
      obtain ⟨ds', h'⟩ := apart_step hP h hi
      exact ih h'

end QP.Pbrs
