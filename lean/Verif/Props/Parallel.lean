import Verif.Proofs.Looks
set_option linter.unusedVariables false
/-!
# Several runs of pb-rs at the same time (C106), and failing writes (C107)
-/

namespace QP.Pbrs
open Parse

variable {cut : Str → List Str × Str} {junk : Str} {n : Nat} {js : List Job} {d d' : Disk} {rs : List (Except RunError Unit)}

/-! ## Whatever the schedule -/

/-- Whatever the schedule, whichever calls fail, and whenever the runs are killed: no file is changed but the outputs and files called
`mod.rs`, and no directory is removed. -/
theorem C106_touched (hd : NoRsImports d) (hj : ∀ j ∈ js, ¬ IsRs j.inFile) (ts : List (Nat × Bool)) :
    (∀ p, ¬ IsModRs p → (∀ j ∈ js, j.noOutput = false → j.out n d ≠ some p) → (turns (js.map (·.steps cut junk n), d) ts).2.file p = d.file p) ∧
    (∀ p, ¬ IsRs p → (turns (js.map (·.steps cut junk n), d) ts).2.file p = d.file p) ∧
    ∀ p, d.dir p = true → (turns (js.map (·.steps cut junk n), d) ts).2.dir p = true := by
  have h := held_turns ts (held_start (cut := cut) (junk := junk) (n := n) hd hj)
  exact ⟨fun p hm hp => h.files p hm fun i j hi => hp j (List.mem_of_getElem? hi), h.same, h.dirs⟩

/-- A `mod.rs` file that is there already is only added to. -/
theorem C106_kept (hd : NoRsImports d) (hj : ∀ j ∈ js, ¬ IsRs j.inFile) (ts : List (Nat × Bool)) {p text : Str} (hp : IsModRs p) (ht : d.file p = some text) :
    ∃ added, (turns (js.map (·.steps cut junk n), d) ts).2.file p = some (text ++ added) := kept_turns hd hj hp ts text ht

/-- From every state that can be reached, all runs can come to an end: they never wait for each other. -/
theorem C106_ends (ps : List Prog) (d : Disk) : ∃ rs d', rs.length = ps.length ∧ Ends ps d rs d' := by
  obtain ⟨sch, rs, d', hl, h⟩ := all_end ps d ps.length (Nat.le_refl _)
  rw [List.drop_length, List.append_nil] at h
  exact ⟨rs, d', hl, sch, h⟩

theorem heard_all (sch : List Nat) : ∀ s, Heard s (sch.map fun i => (i, false)) := by
  induction sch with
  | nil => intro s; trivial
  | cons i sch ih =>
    intro s
    obtain ⟨ps, D⟩ := s
    rw [List.map_cons, Heard]
    cases ps[i]? with
    | none => exact ih _
    | some p => exact ⟨fun h => (by cases h), ih _⟩

/-- C107: a run that reports success has written its output completely, whatever other runs do at the same time and whichever calls fail
— but for the last write, whose result is not looked at. -/
theorem C107_heard_partial (hcut : Cuts cut) (hd : NoRsImports d) (hj : ∀ j ∈ js, ¬ IsRs j.inFile) (ho : OwnOutputs n js d) {ts : List (Nat × Bool)}
    (hh : Heard (js.map (·.steps cut junk n), d) ts) {i : Nat} {j : Job} (hi : js[i]? = some j) (hn : j.noOutput = false)
    (hr : (turns (js.map (·.steps cut junk n), d) ts).1[i]? = some (.done (.ok ()))) :
    ∃ p t, j.out n d = some p ∧ j.text n d = some t ∧ (turns (js.map (·.steps cut junk n), d) ts).2.file p = some t := by
  have h := owes_turns (n := n) (js := js) (d := d) (fun i i' j j' p a b c _ e => ho i i' j j' p a b c e) hi ts (held_start hd hj) hh (fun p hp => by
    rw [List.getElem?_map, hi] at hp
    cases hp
    exact owes_job hcut junk hd (hj j (List.mem_of_getElem? hi)) hn d) _ hr
  unfold Prog.Owes at h
  cases hp : j.out n d with
  | none => rw [hp] at h; exact (h rfl).elim
  | some p =>
    rw [hp] at h
    obtain ⟨h1, h2⟩ := h rfl
    obtain ⟨t, ht⟩ := Option.ne_none_iff_exists'.mp h1
    exact ⟨p, t, rfl, ht, h2.trans ht⟩

/-- C107: a run one of whose calls fails reports an error, if it looks at the answer (that is, if the call is not the last write). -/
theorem C107_reported_partial {ts ts' : List (Nat × Bool)} {i : Nat} {p : Prog} (hp : (turns (js.map (·.steps cut junk n), d) ts).1[i]? = some p)
    (hc : p.CanFail) (hu : ¬ p.Unheard) : (turns (js.map (·.steps cut junk n), d) (ts ++ (i, true) :: ts')).1[i]? ≠ some (.done (.ok ())) := by
  have hs : p.Strict := turns_keep (P := Prog.Strict) (fun q D f h => step_strict h f) i ts (fun q hq => by
    rw [List.getElem?_map] at hq
    cases hi : js[i]? with
    | none => rw [hi] at hq; cases hq
    | some j => rw [hi] at hq; cases hq; exact strict_job cut junk n j) p hp
  rw [turns_append]
  generalize turns (js.map (·.steps cut junk n), d) ts = s at hp
  obtain ⟨ps, D⟩ := s
  simp only at hp
  rw [turns, hp]
  simp only
  intro h
  have := turns_keep (P := Prog.Doomed) (fun q D f h => step_doomed h f) i ts' (fun q hq => by
    rw [List.getElem?_set_self (List.getElem?_eq_some_iff.mp hp).1] at hq
    cases hq
    exact fail_doomed hs hc hu) _ h
  exact this rfl

/-- Runs with different outputs that report success have written their outputs completely, under every schedule. -/
theorem C106_outputs_partial (hcut : Cuts cut) (hd : NoRsImports d) (hj : ∀ j ∈ js, ¬ IsRs j.inFile) (ho : OwnOutputs n js d)
    (he : Ends (js.map (·.steps cut junk n)) d rs d') {i : Nat} {j : Job} (hi : js[i]? = some j) (hn : j.noOutput = false) (hr : rs[i]? = some (.ok ())) :
    ∃ p t, j.out n d = some p ∧ j.text n d = some t ∧ d'.file p = some t := by
  obtain ⟨sch, h⟩ := he
  have := C107_heard_partial (junk := junk) hcut hd hj ho (heard_all sch _) hi hn (by rw [h]; simp only; rw [List.getElem?_map, hr]; rfl)
  rw [h] at this
  exact this

/-! ## Runs that do not meet -/

/-- Runs that do not meet have the results and the effects that they have alone. -/
theorem C106_apart_partial (hcut : Cuts cut) (hd : NoRsImports d) (hj : ∀ j ∈ js, ¬ IsRs j.inFile) (hm : NeverMeet (js.map (·.steps cut junk n)) d)
    (he : Ends (js.map (·.steps cut junk n)) d rs d') :
    rs = js.map (fun j => (writeProto junk n j d).1) ∧
    (∀ j ∈ js, ∀ x, (j.steps cut junk n).changes d x → Agree d' (writeProto junk n j d).2 x) ∧
    ∀ x, (∀ j ∈ js, ¬ (j.steps cut junk n).changes d x) → Agree d' d x := by
  obtain ⟨sch, h⟩ := he
  obtain ⟨ds, ha⟩ := apart_ends hm sch (apart_start (P := js.map (·.steps cut junk n)) (d := d) fun p hp => by
    obtain ⟨j, hj', rfl⟩ := List.mem_map.mp hp
    exact steady_job cut junk hd (hj j hj'))
  rw [h] at ha
  simp only at ha
  have hlen : rs.length = js.length := by simpa using ha.length
  have one : ∀ i j, js[i]? = some j → ∃ r, rs[i]? = some r ∧ r = (writeProto junk n j d).1 ∧ ds i = (writeProto junk n j d).2 ∧
      ∀ x, (j.steps cut junk n).changes d x → Agree d' (ds i) x := by
    intro i j hi
    have hlt : i < rs.length := hlen ▸ (List.getElem?_eq_some_iff.mp hi).1
    refine ⟨rs[i], List.getElem?_eq_getElem _, ?_⟩
    obtain ⟨r1, _, _, _, r5, _⟩ := ha.run i (.done rs[i]) (j.steps cut junk n) (by rw [List.getElem?_map, List.getElem?_eq_getElem hlt]; rfl)
      (by rw [List.getElem?_map, hi]; rfl)
    rw [solo hcut, Prog.run] at r1
    exact ⟨congrArg Prod.fst r1, congrArg Prod.snd r1, fun x hx => r5 x (Or.inr hx)⟩
  refine ⟨?_, ?_, ?_⟩
  · apply List.ext_getElem?
    intro i
    rw [List.getElem?_map]
    cases hi : js[i]? with
    | none => rw [List.getElem?_eq_none (by rw [hlen]; exact List.getElem?_eq_none_iff.mp hi)]; rfl
    | some j =>
      obtain ⟨r, h1, h2, _⟩ := one i j hi
      rw [h1, h2]; rfl
  · intro j hj' x hx
    obtain ⟨i, hi⟩ := List.getElem?_of_mem hj'
    obtain ⟨r, _, _, h3, h4⟩ := one i j hi
    rw [← h3]
    exact h4 x hx
  · intro x hx
    refine ha.rest x fun i p0 h0 => ?_
    rw [List.getElem?_map] at h0
    cases hi : js[i]? with
    | none => rw [hi] at h0; cases h0
    | some j => rw [hi] at h0; cases h0; exact hx j (List.mem_of_getElem? hi)

/-- Runs with different outputs, whose directories are there and which either write to different directories or whose modules are declared
already (as when the same files are generated again), have the results and the effects that they have alone. -/
theorem C106_again_partial (hcut : Cuts cut) (hd : NoRsImports d) (hj : ∀ j ∈ js, ¬ IsRs j.inFile) (hr : ∀ j ∈ js, Ready d n j) (ho : OwnOutputs n js d)
    (hm : ∀ (i i' : Nat) (j j' : Job) (p p' : Str), i ≠ i' → js[i]? = some j → js[i']? = some j' → j.out n d = some p → j'.out n d = some p' →
      modPath p = modPath p' → Listed d p ∧ Listed d p')
    (he : Ends (js.map (·.steps cut junk n)) d rs d') :
    rs = js.map (fun j => (writeProto junk n j d).1) ∧
    (∀ j ∈ js, j.noOutput = false → ∀ p, j.out n d = some p →
      d'.file p = (writeProto junk n j d).2.file p ∧ d'.file (modPath p) = (writeProto junk n j d).2.file (modPath p)) ∧
    (∀ q, (∀ j ∈ js, j.noOutput = false → ∀ p, j.out n d = some p → q ≠ p ∧ q ≠ modPath p) → d'.file q = d.file q) ∧ d'.dir = d.dir := by
  have bd : ∀ (i : Nat) (p : Prog), (js.map (·.steps cut junk n))[i]? = some p → ∃ j, js[i]? = some j ∧ p = j.steps cut junk n := by
    intro i p h
    rw [List.getElem?_map] at h
    cases hi : js[i]? with
    | none => rw [hi] at h; cases h
    | some j => rw [hi] at h; cases h; exact ⟨j, rfl, rfl⟩
  have never : NeverMeet (js.map (·.steps cut junk n)) d := by
    intro i i' p q hne hp hq x hx
    obtain ⟨j, hi, rfl⟩ := bd i p hp
    obtain ⟨j', hi', rfl⟩ := bd i' q hq
    have mj := List.mem_of_getElem? hi
    have mj' := List.mem_of_getElem? hi'
    obtain ⟨_, out, h1, h2⟩ := (bound_job hd (hj j mj) (hr j mj)).2 hx
    have o1 := C71_out h1
    refine ⟨fun hl => ?_, fun hc => ?_⟩
    · rcases (bound_job hd (hj j' mj') (hr j' mj')).1 hl with ⟨q, e⟩ | ⟨q, hq, e⟩ | ⟨out', h1', e⟩
      · rcases h2 with h2 | ⟨h2, _⟩ <;> cases h2.symm.trans e
      · rcases h2 with h2 | ⟨h2, _⟩
        · cases h2.symm.trans e; exact hq o1.1
        · cases h2.symm.trans e; exact hq (isMod_rs (isMod_modPath _))
      · rcases h2 with h2 | ⟨h2, hl⟩
        · cases h2.symm.trans e; exact o1.2 (isMod_modPath _)
        · exact hl (hm i i' j j' out out' hne hi hi' h1 h1' (Item.file.inj (h2.symm.trans e))).1
    · obtain ⟨_, out', h1', h2'⟩ := (bound_job hd (hj j' mj') (hr j' mj')).2 hc
      have o1' := C71_out h1'
      rcases h2 with h2 | ⟨h2, hl⟩
      · rcases h2' with h2' | ⟨h2', _⟩
        · cases h2.symm.trans h2'; exact ho i i' j j' out hne hi hi' h1 h1'
        · cases h2.symm.trans h2'; exact o1.2 (isMod_modPath _)
      · rcases h2' with h2' | ⟨h2', _⟩
        · cases h2.symm.trans h2'; exact o1'.2 (isMod_modPath _)
        · exact hl (hm i i' j j' out out' hne hi hi' h1 h1' (Item.file.inj (h2.symm.trans h2'))).1
  obtain ⟨a1, a2, a3⟩ := C106_apart_partial hcut hd hj never he
  -- what a run that is alone leaves alone
  have still : ∀ j ∈ js, ∀ x, ¬ (j.steps cut junk n).changes d x → Agree (writeProto junk n j d).2 d x := by
    intro j mj x hx
    obtain ⟨m, hm'⟩ := turns_one (j.steps cut junk n) d [j.steps cut junk n] 0 rfl
    have nm : NeverMeet [j.steps cut junk n] d := by
      intro i i' p q hne hp hq
      have l1 := (List.getElem?_eq_some_iff.mp hp).1
      have l2 := (List.getElem?_eq_some_iff.mp hq).1
      simp only [List.length_cons, List.length_nil] at l1 l2
      omega
    have := (C106_apart_partial (js := [j]) (rs := [((j.steps cut junk n).run d).1]) (d' := ((j.steps cut junk n).run d).2) hcut hd
      (fun x hx => by cases List.mem_singleton.mp hx; exact hj j mj) nm ⟨List.replicate m 0, by rw [List.map_replicate]; exact hm'⟩).2.2 x
      (fun j' hj' => by cases List.mem_singleton.mp hj'; exact hx)
    rw [solo hcut] at this
    exact this
  -- nobody else changes it
  have mine : ∀ j ∈ js, ∀ p, j.out n d = some p → ∀ x, (x = .file p ∨ x = .file (modPath p)) → ¬ (j.steps cut junk n).changes d x →
      ∀ j' ∈ js, ¬ (j'.steps cut junk n).changes d x := by
    intro j mj p hp x hx hn j' mj' hc
    obtain ⟨i, hi⟩ := List.getElem?_of_mem mj
    obtain ⟨i', hi'⟩ := List.getElem?_of_mem mj'
    by_cases e : i = i'
    · subst e
      cases hi.symm.trans hi'
      exact hn hc
    · obtain ⟨_, out', h1', h2'⟩ := (bound_job hd (hj j' mj') (hr j' mj')).2 hc
      rcases hx with rfl | rfl
      · rcases h2' with h2' | ⟨h2', _⟩
        · cases h2'; exact ho i i' j j' p e hi hi' hp h1'
        · cases h2'; exact (C71_out hp).2 (isMod_modPath _)
      · rcases h2' with h2' | ⟨h2', hl⟩
        · cases h2'; exact (C71_out h1').2 (isMod_modPath _)
        · exact hl (hm i i' j j' p out' e hi hi' hp h1' (Item.file.inj h2')).2
  have at_ : ∀ j ∈ js, ∀ p, j.out n d = some p → ∀ x, (x = .file p ∨ x = .file (modPath p)) → Agree d' (writeProto junk n j d).2 x := by
    intro j mj p hp x hx
    by_cases hc : (j.steps cut junk n).changes d x
    · exact a2 j mj x hc
    · exact (a3 x (mine j mj p hp x hx hc)).trans (still j mj x hc).symm
  refine ⟨a1, fun j mj _ p hp => ⟨at_ j mj p hp (.file p) (Or.inl rfl), at_ j mj p hp (.file (modPath p)) (Or.inr rfl)⟩, fun q hq => ?_, ?_⟩
  · refine a3 (.file q) fun j mj hc => ?_
    obtain ⟨hn, out, h1, h2⟩ := (bound_job hd (hj j mj) (hr j mj)).2 hc
    rcases h2 with h2 | ⟨h2, _⟩
    · exact (hq j mj hn out h1).1 (Item.file.inj h2)
    · exact (hq j mj hn out h1).2 (Item.file.inj h2)
  · funext q
    refine a3 (.dir q) fun j mj hc => ?_
    obtain ⟨hn, out, h1, h2⟩ := (bound_job hd (hj j mj) (hr j mj)).2 hc
    rcases h2 with h2 | ⟨h2, _⟩ <;> cases h2

/-! ## Examples and refutations -/

namespace ParallelExample
open RunExample

/-- Small texts stay in the `BufWriter` (of 8 KiB) until it is dropped. -/
def late (t : Str) : List Str × Str := ([], t)

theorem late_cuts : Cuts late := fun t => rfl

/-- Two files without packages. -/
def twoSources : List (Str × Str) := [(c! "x.proto", c! "message M { }"), (c! "y.proto", c! "message N { }")]

def jobX : Job := { inFile := c! "x.proto", outFile := c! "x.rs" }
def jobY : Job := { inFile := c! "y.proto", outFile := c! "y.rs" }

/-- 0: not at its end; 1: success; 2: panic; 3: another error. -/
def code : Prog → Nat
  | .done (.ok _) => 1
  | .done (.error .panic) => 2
  | .done (.error _) => 3
  | _ => 0

theorem code_ok {p : Prog} (h : code p = 1) : p = .done (.ok ()) := by
  unfold code at h
  split at h <;> first | rfl | cases h

theorem code_panic {p : Prog} (h : code p = 2) : p = .done (.error .panic) := by
  unfold code at h
  split at h <;> first | rfl | cases h

/-- Turns that end. -/
theorem ends_of {ps : List Prog} {d : Disk} {sch : List Nat} {cs : List Nat} {rs : List (Except RunError Unit)}
    (h : (turns (ps, d) (sch.map fun i => (i, false))).1.map code = cs) (hc : cs.map some = rs.map fun r => match r with | .ok _ => some 1 | .error .panic => some 2 | .error _ => none) :
    Ends ps d rs (turns (ps, d) (sch.map fun i => (i, false))).2 := by
  refine ⟨sch, Prod.ext ?_ rfl⟩
  simp only
  revert h hc
  generalize (turns (ps, d) (sch.map fun i => (i, false))).1 = qs
  intro h hc
  subst h
  induction qs generalizing rs with
  | nil =>
    cases rs with
    | nil => rfl
    | cons r rs => cases hc
  | cons q qs ih =>
    cases rs with
    | nil => cases hc
    | cons r rs =>
      simp only [List.map_cons, List.cons.injEq] at hc
      rw [List.map_cons, ih hc.2]
      congr 1
      have h1 := hc.1
      split at h1
      · exact code_ok (Option.some.inj h1)
      · exact code_panic (Option.some.inj h1)
      · cases h1

theorem own_two {j j' : Job} {d : Disk} {a b : Str} (ha : j.out 1 d = some a) (hb : j'.out 1 d = some b) (hne : a ≠ b) : OwnOutputs 1 [j, j'] d := by
  intro i i' x x' p hi h h' ho ho'
  have l : i < 2 := (List.getElem?_eq_some_iff.mp h).1
  have l' : i' < 2 := (List.getElem?_eq_some_iff.mp h').1
  have : (i = 0 ∧ i' = 1) ∨ (i = 1 ∧ i' = 0) := by omega
  rcases this with ⟨rfl, rfl⟩ | ⟨rfl, rfl⟩
  · cases h; cases h'
    rw [ha] at ho; rw [hb] at ho'
    exact hne (Option.some.inj (ho.trans ho'.symm))
  · cases h; cases h'
    rw [hb] at ho; rw [ha] at ho'
    exact hne (Option.some.inj (ho'.trans ho.symm))

/-- Both have come to where they look for `mod.rs`; then one after the other. -/
def both (k : Nat) (a b : Nat) : List Nat := List.replicate k 0 ++ List.replicate k 1 ++ List.replicate a 0 ++ List.replicate b 1

end ParallelExample

namespace ParallelExample
open RunExample

/-- Generated before: both modules are declared. -/
def declared : Disk := disk ((c! "mod.rs", c! "// Automatically generated mod.rs\npub mod x;\npub mod y;\n") :: twoSources) []

/-- The conditions of C106_again_partial are met when two files are generated again. -/
example : Cuts late ∧ NoRsImports declared ∧ (∀ j ∈ [jobX, jobY], ¬ IsRs j.inFile) ∧ (∀ j ∈ [jobX, jobY], Ready declared 1 j) ∧ OwnOutputs 1 [jobX, jobY] declared ∧
    (∀ (i i' : Nat) (j j' : Job) (p p' : Str), i ≠ i' → [jobX, jobY][i]? = some j → [jobX, jobY][i']? = some j' → j.out 1 declared = some p → j'.out 1 declared = some p' →
      modPath p = modPath p' → Listed declared p ∧ Listed declared p') ∧
    ∃ d', Ends ([jobX, jobY].map (·.steps late [] 1)) declared [.ok (), .ok ()] d' := by
  have o1 : jobX.out 1 declared = some (c! "x.rs") := by decide +kernel
  have o2 : jobY.out 1 declared = some (c! "y.rs") := by decide +kernel
  have l1 : Listed declared (c! "x.rs") := ⟨c! "// Automatically generated mod.rs\npub mod x;\npub mod y;\n", by decide +kernel, by decide +kernel⟩
  have l2 : Listed declared (c! "y.rs") := ⟨c! "// Automatically generated mod.rs\npub mod x;\npub mod y;\n", by decide +kernel, by decide +kernel⟩
  have all : ∀ (i : Nat) (j : Job) (p : Str), [jobX, jobY][i]? = some j → j.out 1 declared = some p → Listed declared p := by
    intro i j p hi hp
    have mj : j ∈ [jobX, jobY] := List.mem_of_getElem? hi
    simp only [List.mem_cons, List.not_mem_nil, or_false] at mj
    rcases mj with rfl | rfl
    · cases o1.symm.trans hp; exact l1
    · cases o2.symm.trans hp; exact l2
  refine ⟨late_cuts, noRs_of (by decide +kernel), by unfold IsRs; decide, ?_, own_two o1 o2 (by decide), fun i i' j j' p p' _ hi hi' hp hp' _ => ⟨all i j p hi hp, all i' j' p' hi' hp'⟩, _,
    ends_of (sch := both 5 3 3) (cs := [1, 1]) (by decide +kernel) rfl⟩
  intro j mj D hD before hb hne
  have hp : (match j.compiled 1 declared with | some D => decide (packageDirs D.package = []) | none => true) = true := by
    simp only [List.mem_cons, List.not_mem_nil, or_false] at mj
    rcases mj with rfl | rfl <;> decide +kernel
  rw [hD] at hp
  rw [of_decide_eq_true hp] at hb
  exact (hne (List.prefix_nil.mp hb)).elim

theorem heard_last {i : Nat} {ts : List (Nat × Bool)} : ∀ {s : List Prog × Disk}, Heard s ts →
    (∀ p, (turns s ts).1[i]? = some p → ¬ p.Unheard) → Heard s (ts ++ [(i, true)]) := by
  induction ts with
  | nil =>
    intro s _ h
    obtain ⟨ps, D⟩ := s
    rw [List.nil_append, Heard]
    cases hi : ps[i]? with
    | none => trivial
    | some p => exact ⟨fun _ => h p hi, trivial⟩
  | cons x ts ih =>
    intro s hs h
    obtain ⟨ps, D⟩ := s
    obtain ⟨i', fails⟩ := x
    rw [List.cons_append, Heard]
    rw [Heard] at hs
    rw [turns] at h
    cases hi : ps[i']? with
    | none => rw [hi] at hs h; exact ih hs h
    | some p => rw [hi] at hs h; exact ⟨hs.1, ih hs.2 h⟩

def isCreate : Prog → Bool
  | .create _ _ => true
  | _ => false

/-- The conditions of C107_heard_partial are met by a run in which a call fails (the creation of `mod.rs`): it reports the error. -/
example : Heard ([jobX.steps late [] 1], disk twoSources []) (List.replicate 5 (0, false) ++ [(0, true)]) ∧
    (turns ([jobX.steps late [] 1], disk twoSources []) (List.replicate 5 (0, false) ++ [(0, true), (0, false)])).1.map code = [3] := by
  refine ⟨heard_last (heard_all (List.replicate 5 0) _) fun p hp => ?_, by decide +kernel⟩
  have h : ((turns ([jobX.steps late [] 1], disk twoSources []) (List.replicate 5 (0, false))).1[0]?.map isCreate) = some true := by decide +kernel
  rw [hp] at h
  cases p with
  | create q k => exact id
  | _ => cases h

end ParallelExample

open ParallelExample RunExample in
/-- C106 is false of runs that generate the first modules of a directory: both succeed, but one of the modules is not declared. (One after the
other, they declare both.) -/
theorem C106_refuted_lost : ∃ (d d' : Disk) (j j' : Job), OwnOutputs 1 [j, j'] d ∧ Ends ([j, j'].map (·.steps late [] 1)) d [.ok (), .ok ()] d' ∧
    d'.file (c! "mod.rs") = some (c! "// Automatically generated mod.rs\npub mod y;\n") ∧ d'.file (c! "x.rs") = j.text 1 d ∧
    (run [] 1 [j, j'] d).2.file (c! "mod.rs") = some (c! "// Automatically generated mod.rs\npub mod x;\npub mod y;\n") := by
  refine ⟨disk twoSources [], _, jobX, jobY, own_two (a := c! "x.rs") (b := c! "y.rs") (by decide +kernel) (by decide +kernel) (by decide), ends_of (sch := both 5 8 8) (cs := [1, 1]) (by decide +kernel) rfl, by decide +kernel, by decide +kernel, by decide +kernel⟩
namespace ParallelExample
open RunExample

/-- With a `mod.rs`. -/
def withMod : Disk := disk ((c! "mod.rs", c! "// Automatically generated mod.rs\n") :: twoSources) []

end ParallelExample

open ParallelExample RunExample in
/-- C106 is false of runs that add to the same `mod.rs`: both succeed, and `mod.rs` is not a Rust file any more. -/
theorem C106_refuted_garbled : ∃ (d d' : Disk) (j j' : Job), OwnOutputs 1 [j, j'] d ∧ Ends ([j, j'].map (·.steps late [] 1)) d [.ok (), .ok ()] d' ∧
    d'.file (c! "mod.rs") = some (c! "// Automatically generated mod.rs\npub mod pub mod y;\nx;\n") ∧
    (run [] 1 [j, j'] d).2.file (c! "mod.rs") = some (c! "// Automatically generated mod.rs\npub mod x;\npub mod y;\n") :=
  ⟨withMod, _, jobX, jobY, own_two (a := c! "x.rs") (b := c! "y.rs") (by decide +kernel) (by decide +kernel) (by decide),
    ends_of (sch := both 5 1 4 ++ [0, 0, 0, 0]) (cs := [1, 1]) (by decide +kernel) rfl, by decide +kernel, by decide +kernel⟩

open ParallelExample RunExample in
/-- C106: two runs write the first lines of `mod.rs` over each other, and what is left of the longer one is not Rust. -/
theorem C106_refuted_mixed : ∃ (d d' : Disk) (j j' : Job), OwnOutputs 1 [j, j'] d ∧ Ends ([j, j'].map (·.steps late [] 1)) d [.ok (), .ok ()] d' ∧
    d'.file (c! "mod.rs") = some (c! "// Automatically generated mod.rs\npub mod y;\ng;\n") :=
  ⟨disk twoSources [], _, { jobX with outFile := c! "long.rs" }, jobY, own_two (a := c! "long.rs") (b := c! "y.rs") (by decide +kernel) (by decide +kernel) (by decide),
    ends_of (sch := both 5 1 1 ++ List.replicate 8 0 ++ List.replicate 8 1) (cs := [1, 1]) (by decide +kernel) rfl, by decide +kernel⟩

open ParallelExample RunExample in
/-- C106: a run panics because it looks at a `mod.rs` to which another run is adding a line. -/
theorem C106_refuted_panic : ∃ (d d' : Disk) (j j' : Job), OwnOutputs 1 [j, j'] d ∧ Ends ([j, j'].map (·.steps late [] 1)) d [.ok (), .error .panic] d' ∧
    (run [] 1 [j, j'] d).1.isOk = true ∧ (run [] 1 [j', j] d).1.isOk = true :=
  ⟨withMod, _, jobX, jobY, own_two (a := c! "x.rs") (b := c! "y.rs") (by decide +kernel) (by decide +kernel) (by decide),
    ends_of (sch := List.replicate 6 0 ++ List.replicate 8 1 ++ List.replicate 4 0) (cs := [1, 2]) (by decide +kernel) rfl, by decide +kernel, by decide +kernel⟩

open ParallelExample RunExample in
/-- C106: two runs make the same directory of their packages, and declare it twice. -/
theorem C106_refuted_twice : ∃ (d d' : Disk) (j j' : Job), OwnOutputs 1 [j, j'] d ∧ Ends ([j, j'].map (·.steps late [] 1)) d [.ok (), .ok ()] d' ∧
    d'.file (c! "mod.rs") = some (c! "// Automatically generated mod.rs\npub mod a;\npub mod a;\n") ∧
    (run [] 1 [j, j'] d).2.file (c! "mod.rs") = some (c! "// Automatically generated mod.rs\npub mod a;\n") :=
  ⟨disk [(c! "mod.rs", c! "// Automatically generated mod.rs\n"), (c! "x.proto", c! "package a.b; message M { }"), (c! "y.proto", c! "package a.c; message N { }")] [],
    _, jobX, jobY, own_two (a := c! "a/b.rs") (b := c! "a/c.rs") (by decide +kernel) (by decide +kernel) (by decide),
    ends_of (sch := [0, 0, 1, 1, 0, 0, 1, 1] ++ List.replicate 20 0 ++ List.replicate 20 1) (cs := [1, 1]) (by decide +kernel) rfl, by decide +kernel, by decide +kernel⟩

/-! ## C107 -/

open ParallelExample RunExample in
/-- C107 is false: when the disk is full at the last write, the run reports success, and the output is empty. -/
theorem C107_refuted : ∃ (d d' : Disk) (j : Job) (ts : List (Nat × Bool)) (text : Str), (ts.filter (·.2)).length = 1 ∧
    turns ([j.steps late [] 1], d) ts = ([.done (.ok ())], d') ∧ j.out 1 d = some (c! "x.rs") ∧ j.text 1 d = some text ∧ text ≠ [] ∧
    d'.file (c! "x.rs") = some [] := by
  have h : ((turns ([jobX.steps late [] 1], disk twoSources []) (List.replicate 11 (0, false) ++ [(0, true)])).1.map code = [1]) := by decide +kernel
  have ht : ((jobX.text 1 (disk twoSources [])).getD []).isEmpty = false ∧ (jobX.text 1 (disk twoSources [])).isSome = true := by decide +kernel
  obtain ⟨text, htext⟩ := Option.isSome_iff_exists.mp ht.2
  refine ⟨disk twoSources [], _, jobX, List.replicate 11 (0, false) ++ [(0, true)], text, ?_, Prod.ext ?_ rfl, by decide +kernel, htext, ?_, by decide +kernel⟩
  · decide
  · revert h
    generalize (turns ([jobX.steps late [] 1], disk twoSources []) (List.replicate 11 (0, false) ++ [(0, true)])).1 = qs
    intro h
    cases qs with
    | nil => cases h
    | cons q qs =>
      cases qs with
      | nil => rw [code_ok (List.cons.inj h).1]
      | cons q' qs => cases (List.cons.inj h).2
  · rintro rfl
    rw [htext] at ht
    cases ht.1

/-! ## C75, system call by system call -/

theorem torn_panics (name : Str) : updateModFile (some (c! "// Automatically generated mod.rs\npub mod ")) name = none := by
  have h1 : lines (c! "// Automatically generated mod.rs\npub mod ") = [c! "// Automatically generated mod.rs", c! "pub mod "] := by decide +kernel
  have h2 : lineRefers name (c! "// Automatically generated mod.rs") = some false := by
    unfold lineRefers
    have : afterFirst PUB_MOD (c! "// Automatically generated mod.rs") = none := by decide +kernel
    rw [this]
  have h3 : lineRefers name (c! "pub mod ") = none := by
    unfold lineRefers
    have : afterFirst PUB_MOD (c! "pub mod ") = some [] := by decide +kernel
    rw [this]
    rfl
  have h4 : isPresent name [c! "// Automatically generated mod.rs", c! "pub mod "] = none := by
    have h5 : (afterFirst MAGIC_HEADER (c! "// Automatically generated mod.rs")).isSome = true := by decide +kernel
    have h6 : scanLines name [c! "pub mod "] = none := by rw [scanLines, h3]
    have h7 : scanLines name [c! "// Automatically generated mod.rs", c! "pub mod "] = none := by
      rw [scanLines, h2]
      exact h6
    unfold isPresent
    simp only
    rw [h5]
    exact h7
  unfold updateModFile
  simp only
  rw [h1, h4]

/-- A `mod.rs` that makes every look at it panic. -/
theorem torn_dirs {M torn : Str} (ht : ∀ name, updateModFile (some torn) name = none) (ps : List Str) : ∀ {d d' : Disk} {out : Str} {r : Except RunError Str},
    enterDirs d out ps = (r, d') → d.file M = some torn → d'.file M = some torn := by
  induction ps with
  | nil => intro d d' out r h hd; cases h; exact hd
  | cons p ps ih =>
    intro d d' out r h hd
    rw [enterDirs] at h
    split at h
    · exact ih h hd
    · split at h
      · cases h; exact hd
      · rename_i e hu
        refine ih h ?_
        unfold Disk.updateMod at hu
        by_cases hm : modPath (joinPath out p) = M
        · rw [hm, show (d.mkdirs (joinPath out p)).file M = some torn from hd, ht] at hu
          cases hu
        · split at hu
          · cases hu
            exact (if_neg fun e => hm e.symm).trans hd
          · cases hu

theorem torn_forever {M torn : Str} (hM : IsModRs M) (ht : ∀ name, updateModFile (some torn) name = none) {junk : Str} {n : Nat} {j : Job} {d : Disk}
    (hd : d.file M = some torn) : (writeProto junk n j d).2.file M = some torn ∧
    ∀ p, j.noOutput = false → j.out n d = some p → modPath p = M → (writeProto junk n j d).1 ≠ .ok () := by
  have hupd : ∀ {d1 d' : Disk} {p : Str}, d1.file M = some torn → d1.updateMod p = some d' → d'.file M = some torn ∧ modPath p ≠ M := by
    intro d1 d' p h hu
    unfold Disk.updateMod at hu
    by_cases hm : modPath p = M
    · rw [hm, h, ht] at hu; cases hu
    · split at hu
      · cases hu
        exact ⟨(if_neg fun e => hm e.symm).trans h, hm⟩
      · cases hu
  unfold writeProto
  cases hc : compileFile d.file j.search (typePath j.cfg) j.cfg n j.inFile with
  | error e => exact ⟨hd, fun p _ _ _ h => by cases h⟩
  | ok D0 =>
    simp only
    have hD : j.compiled n d = some (D0.printed j.cfg) := by unfold Job.compiled; rw [hc]
    have hout : j.out n d = some (outPath (D0.printed j.cfg).package j.outFile) := by unfold Job.out; rw [hD]; rfl
    have hne : M ≠ outPath (D0.printed j.cfg).package j.outFile := fun e => (C71_out hout).2 (e ▸ hM)
    rcases he : enterDirs d (parentPath j.outFile) (packageDirs (D0.printed j.cfg).package) with ⟨r, d1⟩
    have hd1 := torn_dirs ht _ he hd
    cases r with
    | error e => exact ⟨hd1, fun p _ _ _ h => by cases h⟩
    | ok dir =>
      cases enterDirs_ok he
      have hput : ∀ (t : Str), (d1.put (outPath (D0.printed j.cfg).package j.outFile) t).file M = some torn := fun t => (if_neg hne).trans hd1
      simp only
      split
      · rename_i hn
        exact ⟨hd1, fun p hn' => by rw [hn] at hn'; cases hn'⟩
      · split
        · exact ⟨hd1, fun p _ _ _ h => by cases h⟩
        · split
          · exact ⟨hput _, fun p _ _ _ h => by cases h⟩
          · split
            · exact ⟨hput _, fun p _ _ _ h => by cases h⟩
            · rename_i hu
              obtain ⟨a, b⟩ := hupd (hput _) hu
              exact ⟨a, fun p _ hp hm => (b (by cases hout.symm.trans hp; exact hm)).elim⟩

open ParallelExample RunExample in
/-- C75 is false of a run that is killed while it adds a line to `mod.rs`: no run whose output is in this directory succeeds any more. -/
theorem C75_refuted_killed : ∃ (d d1 : Disk) (j : Job) (k : Nat), (writeProto [] 1 j d).1.isOk = true ∧
    (turns ([j.steps late [] 1], d) (List.replicate k (0, false))).2 = d1 ∧
    ∀ (junk : Str) (n : Nat) (j' : Job) (d2 : Disk), d2.file (c! "mod.rs") = d1.file (c! "mod.rs") →
      (writeProto junk n j' d2).2.file (c! "mod.rs") = d1.file (c! "mod.rs") ∧
      ∀ p, j'.noOutput = false → j'.out n d2 = some p → modPath p = c! "mod.rs" → (writeProto junk n j' d2).1 ≠ .ok () := by
  refine ⟨disk twoSources [], _, jobX, 9, by decide +kernel, rfl, fun junk n j' d2 h => ?_⟩
  have h1 : (turns ([jobX.steps late [] 1], disk twoSources []) (List.replicate 9 (0, false))).2.file (c! "mod.rs") =
      some (c! "// Automatically generated mod.rs\npub mod ") := by decide +kernel
  rw [h1] at h ⊢
  exact torn_forever (Or.inl rfl) torn_panics h

end QP.Pbrs
