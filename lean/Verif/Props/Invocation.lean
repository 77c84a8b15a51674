import Verif.Spec.Invocation
import Verif.Props.Search
import Verif.Props.Enums
set_option linter.unusedVariables false
/-!
# C86: what the command line asks for
-/

namespace QP.Pbrs
open Parse

/-- A command line is refused exactly if it is not allowed. -/
theorem C86_allowed (i : Invocation) (d : Disk) : (∃ o, i.check d = .ok o) ↔ Allowed i d := by
  unfold Invocation.check
  constructor
  · rintro ⟨o, h⟩
    split at h
    · cases h
    rename_i h1
    split at h
    · cases h
    rename_i h2
    have h1' : i.inFiles ≠ [] := by simpa using h1
    have h2' : ∀ f ∈ i.inFiles, d.exists_ f = true := by
      intro f hf
      have := List.find?_eq_none.mp h2 f hf
      simpa using this
    cases ho : i.output with
    | none =>
      cases hd : i.outputDir with
      | none => exact ⟨h1', h2', .inl ho, fun x => absurd ho x, fun o x => by rw [hd] at x; cases x⟩
      | some o' =>
        simp only [ho, hd] at h
        split at h
        · rename_i hdir
          exact ⟨h1', h2', .inl ho, fun x => absurd ho x, fun o x => by rw [hd] at x; cases x; exact hdir⟩
        · cases h
    | some o' =>
      cases hd : i.outputDir with
      | none =>
        simp only [ho, hd] at h
        split at h
        · cases h
        · rename_i hl
          refine ⟨h1', h2', .inr hd, fun _ => ?_, fun o x => by rw [hd] at x; cases x⟩
          have : 0 < i.inFiles.length := List.length_pos_iff.mpr h1'
          omega
      | some o'' => simp only [ho, hd] at h; cases h
  · rintro ⟨h1, h2, h3, h4, h5⟩
    rw [if_neg (by simpa using h1)]
    have hf : i.inFiles.find? (fun f => !d.exists_ f) = none := List.find?_eq_none.mpr fun f hf => by simp [h2 f hf]
    rw [hf]
    simp only
    cases ho : i.output with
    | none =>
      cases hd : i.outputDir with
      | none => exact ⟨_, rfl⟩
      | some o' => simp only; rw [if_pos (h5 o' hd)]; exact ⟨_, rfl⟩
    | some o' =>
      cases hd : i.outputDir with
      | none =>
        simp only
        have := h4 (by rw [ho]; simp)
        rw [if_neg (by omega)]
        exact ⟨_, rfl⟩
      | some o'' => rcases h3 with h3 | h3 <;> simp_all

/-- A command line that is not allowed is refused with an error that says why, and nothing happens to the disk. -/
theorem C86_refused {i : Invocation} {d : Disk} (h : ¬ Allowed i d) (junk : Str) (n : Nat) :
    ∃ e, i.run junk n d = (.error e, d) ∧ Complaint i d e := by
  unfold Invocation.run
  cases hc : i.check d with
  | ok o => exact absurd ((C86_allowed i d).mp ⟨o, hc⟩) h
  | error e =>
    refine ⟨e, rfl, ?_⟩
    unfold Invocation.check at hc
    split at hc
    · rename_i h1
      cases hc
      simpa [Complaint] using h1
    split at hc
    · cases hc
      rename_i f hf
      exact ⟨List.mem_of_find?_eq_some hf, by simpa using List.find?_some hf⟩
    cases ho : i.output with
    | none =>
      cases hd : i.outputDir with
      | none => simp only [ho, hd] at hc; cases hc
      | some o' =>
        simp only [ho, hd] at hc
        split at hc
        · cases hc
        · rename_i h1
          cases hc
          exact ⟨hd, by simpa using h1⟩
    | some o' =>
      cases hd : i.outputDir with
      | none =>
        simp only [ho, hd] at hc
        split at hc
        · cases hc; exact ⟨by rw [ho]; simp, by omega⟩
        · cases hc
      | some o'' => simp only [ho, hd] at hc; cases hc; exact ⟨by rw [ho]; simp, by rw [hd]; simp⟩

/-- The include path is what was given, in that order, and the directory of the importing file. -/
theorem C86_search (i : Invocation) : i.includePaths <+: i.search ∧ ['.'] ∈ i.search ∧
    (i.search = i.includePaths ∨ i.search = i.includePaths ++ [['.']]) := by
  unfold Invocation.search
  split
  · exact ⟨List.prefix_append .., by simp, .inr rfl⟩
  · rename_i h
    refine ⟨List.prefix_rfl, ?_, .inl rfl⟩
    simp at h
    exact h.2

theorem getLast_parts {f : Str} (h : FilePath f) : (parts f).getLast? = some (splitSlash f).2 := by
  rw [parts_split, parts_name (splitSlash_name f) h.1 h.2, List.getLast?_append]
  simp

theorem rsplit_append {a b : Str} (hb : '.' ∉ b) : rsplitDot (a ++ '.' :: b) = some (a, b) := by
  induction a with
  | nil => simp only [List.nil_append, rsplitDot, rsplitDot_none.mpr hb]; simp
  | cons c a ih => simp only [List.cons_append, rsplitDot, ih]

theorem HasName.name' {f stem ext : Str} (h : HasName f stem ext) : (splitSlash f).2 = stem ++ '.' :: ext := by
  have := h.name
  rw [getLast_parts h.file] at this
  exact Option.some.inj this

theorem HasName.fileStem {f stem ext : Str} (h : HasName f stem ext) (he : '.' ∉ ext) : fileStem f = stem := by
  unfold QP.Pbrs.fileStem
  rw [h.name', rsplit_append he]
  simp only
  rw [if_neg (by simpa using h.nonempty)]

theorem fileName_rs {stem : Str} (h : '/' ∉ stem) : '/' ∉ stem ++ c! ".rs" := by
  intro hm
  rcases List.mem_append.mp hm with hm | hm
  · exact h hm
  · revert hm; decide

theorem ends_rs (s : Str) : s ++ c! ".rs" ≠ [] ∧ s ++ c! ".rs" ≠ ['.'] := by
  refine ⟨by simp, fun h => ?_⟩
  have := congrArg List.length h
  simp at this

theorem withRs_split {f stem ext : Str} (h : HasName f stem ext) (he : '.' ∉ ext) :
    splitSlash (withRs f) = ((splitSlash f).1, stem ++ c! ".rs") := by
  have hs : '/' ∉ stem := fun hm => splitSlash_name f (by rw [h.name']; simp [hm])
  unfold withRs
  rw [h.fileStem he, List.append_assoc]
  exact takeWhile_rev (fileName_rs hs) (splitSlash_dir f)

theorem jobs_promised {i : Invocation} {d : Disk} {o : Option Str} (ho : i.check d = .ok o) :
    ∀ j ∈ i.jobs d o, ∀ stem ext, HasName j.inFile stem ext → '.' ∉ ext → (∀ o, i.output = some o → d.isDir o = false) →
      Promised i j.inFile stem j.outFile := by
  intro j hj stem ext hN he hdir
  unfold Invocation.jobs at hj
  obtain ⟨f, hf, rfl⟩ := List.mem_map.mp hj
  have hsp := withRs_split hN he
  have hs : '/' ∉ stem ++ c! ".rs" := by have := splitSlash_name (withRs f); rwa [hsp] at this
  have hpn : parts (stem ++ c! ".rs") = [stem ++ c! ".rs"] := parts_name hs (ends_rs stem).1 (ends_rs stem).2
  have hb : isAbsolute (stem ++ c! ".rs") = false := relative hs
  unfold Invocation.check at ho
  split at ho
  · cases ho
  split at ho
  · cases ho
  unfold Promised
  cases h1 : i.output with
  | none =>
    cases h2 : i.outputDir with
    | none =>
      simp only [h1, h2] at ho
      cases ho
      have hw := splitSlash_eq (withRs f)
      rw [hsp] at hw
      have hf1 : parts f = parts (splitSlash f).1 ++ [(splitSlash f).2] := by
        rw [parts_split, parts_name (splitSlash_name f) hN.file.1 hN.file.2]
      refine ⟨?_, ?_⟩
      · show isAbsolute (withRs f) = isAbsolute f
        rw [hw]
        conv => rhs; rw [splitSlash_eq f]
        rcases splitSlash_dir f with hd | ⟨y, hd⟩
        · rw [hd]
          exact hb.trans (relative (splitSlash_name f)).symm
        · rw [isAbsolute_append (by rw [hd]; simp), isAbsolute_append (by rw [hd]; simp)]
      · show parts (withRs f) = _
        rw [parts_split (withRs f), hsp, hf1, List.dropLast_concat, hpn]
    | some o' =>
      simp only [h1, h2] at ho
      split at ho
      · rename_i hd
        cases ho
        simp only [hd, if_true]
        rw [hsp]
        exact ⟨abs_join hb, parts_join hb⟩
      · cases ho
  | some o' =>
    cases h2 : i.outputDir with
    | none =>
      simp only [h1, h2] at ho
      split at ho
      · cases ho
      · cases ho
        simp only [hdir o' h1, Bool.false_eq_true, if_false]
        exact ⟨rfl, rfl⟩
    | some o'' => simp only [h1, h2] at ho; cases ho

/-- What `build` makes of a command line: one job for each input, in the order of the inputs, all with the options that were given;
and the output of each is the promised one. -/
theorem C86_jobs {i : Invocation} {d : Disk} (h : Allowed i d) : ∃ js : List Job,
    (∀ junk n, i.run junk n d = run junk n js d) ∧ js.map (·.inFile) = i.inFiles ∧
    ∀ j ∈ js, j.cfg = i.cfg ∧ j.search = i.search ∧ j.noOutput = i.noOutput ∧
      ∀ stem, Stem j.inFile stem → (∀ o, i.output = some o → d.isDir o = false) → Promised i j.inFile stem j.outFile := by
  obtain ⟨o, ho⟩ := (C86_allowed i d).mpr h
  refine ⟨i.jobs d o, fun junk n => by unfold Invocation.run; rw [ho], ?_, ?_⟩
  · unfold Invocation.jobs
    rw [List.map_map]
    exact List.map_id' _
  · intro j hj
    have hp := jobs_promised ho j hj
    unfold Invocation.jobs at hj
    obtain ⟨f, hf, rfl⟩ := List.mem_map.mp hj
    exact ⟨rfl, rfl, rfl, fun stem ⟨ext, h1, h2⟩ => hp stem ext h1 h2⟩

/-! ## Where the code goes -/

/-- The output of a job has a name. -/
theorem jobs_name {i : Invocation} {d : Disk} {o : Option Str} (ho : i.check d = .ok o) (hn : i.output = none) :
    ∀ j ∈ i.jobs d o, ∀ stem ext, HasName j.inFile stem ext → '.' ∉ ext → (splitSlash j.outFile).2 = stem ++ c! ".rs" := by
  intro j hj stem ext hN he
  unfold Invocation.jobs at hj
  obtain ⟨f, hf, rfl⟩ := List.mem_map.mp hj
  have hsp := withRs_split hN he
  have hs : '/' ∉ stem ++ c! ".rs" := by have := splitSlash_name (withRs f); rwa [hsp] at this
  unfold Invocation.check at ho
  split at ho
  · cases ho
  split at ho
  · cases ho
  cases h2 : i.outputDir with
  | none => simp only [hn, h2] at ho; cases ho; exact congrArg Prod.snd hsp
  | some o' =>
    simp only [hn, h2] at ho
    split at ho
    · rename_i hd
      cases ho
      simp only [hd, if_true]
      rw [hsp]
      exact splitSlash_join _ hs
    · cases ho

theorem plain_stem {s : Str} (h : PlainStem s) : sanitizeKeyword s = s ∧ '/' ∉ s := by
  refine ⟨Rust.sanitize_other (fun hd => ?_) h.keyword, fun hd => ?_⟩
  · exact absurd (h.chars _ hd) (by unfold IdentChar; decide)
  · exact absurd (h.chars _ hd) (by unfold IdentChar; decide)

theorem getFileStem_plain {o s : Str} (hn : (splitSlash o).2 = s ++ c! ".rs") (h0 : s ≠ []) (h : PlainStem s) : getFileStem o = s := by
  have h1 : fileStem o = s := by
    unfold fileStem
    rw [hn, show s ++ c! ".rs" = s ++ '.' :: c! "rs" from rfl, rsplit_append (by decide)]
    simp only
    rw [if_neg (by simpa using h0)]
  unfold getFileStem
  rw [h1]
  have h2 : s.map (fun c => if isAlpha c || isDigit c || 128 ≤ c.toNat then c else '_') = s := by
    refine (List.map_congr_left fun c hc => ?_).trans (List.map_id' s)
    rcases h.chars c hc with h | h | h
    · rw [h]; rfl
    · rw [h]; simp
    · subst h; rfl
  rw [h2]
  exact (plain_stem h).1

/-- Without a package, the output goes where it should. -/
theorem outPath_plain {o s : Str} (hn : (splitSlash o).2 = s ++ c! ".rs") (h0 : s ≠ []) (h : PlainStem s) : SamePlace (outPath [] o) o := by
  have e : outPath [] o = joinPath (parentPath o) (s ++ c! ".rs") := by
    unfold outPath
    have h1 : packageDirs [] = [] := by decide
    have h2 : outName [] o = s ++ c! ".rs" := by
      unfold outName
      rw [getFileStem_plain hn h0 h]
      rfl
    rw [h1, h2]
    rfl
  have hs : '/' ∉ s ++ c! ".rs" := fileName_rs (plain_stem h).2
  have hb : isAbsolute (s ++ c! ".rs") = false := relative hs
  have hf : FilePath o := by unfold FilePath; rw [hn]; exact ends_rs s
  obtain ⟨h1, h2⟩ := parent_parts hf
  have hp : parts o = parts (splitSlash o).1 ++ [s ++ c! ".rs"] := by
    rw [parts_split, hn, parts_name hs (ends_rs s).1 (ends_rs s).2]
  rw [e]
  refine ⟨(abs_join hb).trans h2, ?_⟩
  rw [parts_join hb, h1, parts_name hs (ends_rs s).1 (ends_rs s).2, hp, List.dropLast_concat]

theorem Promised.same {i : Invocation} {f stem p q : Str} (h : Promised i f stem p) (hs : SamePlace q p) : Promised i f stem q := by
  unfold Promised at h ⊢
  cases h1 : i.output with
  | some o => simp only [h1] at h ⊢; exact ⟨hs.1.trans h.1, hs.2.trans h.2⟩
  | none =>
    cases h2 : i.outputDir with
    | none => simp only [h1, h2] at h ⊢; exact ⟨hs.1.trans h.1, hs.2.trans h.2⟩
    | some o => simp only [h1, h2] at h ⊢; exact ⟨hs.1.trans h.1, hs.2.trans h.2⟩

/-- Everything that is compiled in a successful run has an output. -/
theorem run_outs {junk : Str} {n : Nat} {js : List Job} : ∀ {d d' : Disk}, run junk n js d = (.ok (), d') →
    NoRsImports d → (∀ j ∈ js, ¬ IsRs j.inFile) → ∀ j ∈ js, ∃ D, j.compiled n d = some D := by
  induction js with
  | nil => intro d d' h _ _ j hj; cases hj
  | cons j js ih =>
    intro d d' h hd hj x hx
    rw [run] at h
    split at h
    · cases h
    · rename_i d1 h1
      have hs := same_one h1
      rcases List.mem_cons.mp hx with rfl | hx
      · rcases writeProto_spec h1 with ⟨_, ⟨_, h2⟩, _⟩ | ⟨D, hD, _⟩
        · cases h2
        · exact ⟨D, hD⟩
      · obtain ⟨D, hD⟩ := ih h (hd.same hs) (fun y hy => hj y (by simp [hy])) x hx
        exact ⟨D, by rw [← compiled_same hs hd (hj x (by simp [hx]))]; exact hD⟩

/-- A file without a package, or single-module mode: nothing is left of the package. -/
theorem printed_package {n : Nat} {j : Job} {d : Disk} {D : FileDescriptor} (h : j.compiled n d = some D)
    (hp : j.cfg.singleModule = true ∨ ∀ D0 imps, Reads d.file j.inFile D0 imps → D0.package = []) : D.package = [] := by
  unfold Job.compiled compileFile at h
  split at h
  · rename_i D0 h0
    split at h0
    · cases h0
    · rename_i E hE
      split at h0
      · cases h0
      · rename_i E' hE'
        cases h0
        cases h
        unfold FileDescriptor.printed
        split
        · rfl
        · rename_i hs
          rw [compile_package hE']
          rcases hp with hp | hp
          · exact absurd hp hs
          · cases n with
            | zero => cases hE
            | succ n =>
              obtain ⟨D1, imps, hr, hf⟩ := readProtoFile_inv hE
              show E.package = []
              rw [fetch_package _ hf]
              exact hp D1 imps hr
  · cases h

theorem text_generate {n : Nat} {j : Job} {d : Disk} {t : Str} (h : j.text n d = some t) : generate d.file j.search j.cfg n j.inFile = some t := by
  unfold Job.text Job.compiled at h
  unfold generate
  cases hc : compileFile d.file j.search (typePath j.cfg) j.cfg n j.inFile with
  | error e => rw [hc] at h; cases h
  | ok D =>
    rw [hc] at h
    simp only [Option.bind_some] at h ⊢
    revert h
    cases (FileDescriptor.printed j.cfg D).write j.cfg (splitSlash j.inFile).snd (servicesOf ((d.file j.inFile).getD [])) with
    | ok t => exact id
    | error e => exact id

/-- After a successful run, the code for every input is where the help text promises it, if the files have no package (or
`--single-mod` is given) and their names are identifiers and no keywords, and no two inputs are promised the same place. -/
theorem C86_written_partial {i : Invocation} {junk : Str} {n : Nat} {d d' : Disk} (h : i.run junk n d = (.ok (), d'))
    (hd : NoRsImports d) (hi : ∀ f ∈ i.inFiles, ¬ IsRs f) (hno : i.noOutput = false)
    (hnames : ∀ f ∈ i.inFiles, ∃ stem, Stem f stem ∧ PlainStem stem)
    (hout : ∀ o, i.output = some o → d.isDir o = false ∧ ∃ s, HasName o s (c! "rs") ∧ PlainStem s)
    (hpkg : i.cfg.singleModule = true ∨ ∀ f ∈ i.inFiles, ∀ D imps, Reads d.file f D imps → D.package = [])
    (hdiff : i.inFiles.Pairwise fun f g => ∀ s t p, Stem f s → Stem g t → Promised i f s p → ¬ Promised i g t p) :
    ∀ f ∈ i.inFiles, ∃ stem p t, Stem f stem ∧ Promised i f stem p ∧ d'.file p = some t ∧
      generate d.file i.search i.cfg n f = some t := by
  have hA : Allowed i d := by
    by_contra hA
    obtain ⟨e, he, _⟩ := C86_refused hA junk n
    rw [he] at h
    cases h
  obtain ⟨o, ho⟩ := (C86_allowed i d).mpr hA
  have hrun : run junk n (i.jobs d o) d = (.ok (), d') := by
    unfold Invocation.run at h
    rw [ho] at h
    exact h
  have hin : (i.jobs d o).map (·.inFile) = i.inFiles := by
    unfold Invocation.jobs; rw [List.map_map]; exact List.map_id' _
  have hmem : ∀ j ∈ i.jobs d o, j.inFile ∈ i.inFiles := fun j hj => by rw [← hin]; exact List.mem_map.mpr ⟨j, hj, rfl⟩
  have hcfg : ∀ j ∈ i.jobs d o, j.cfg = i.cfg ∧ j.search = i.search ∧ j.noOutput = i.noOutput := by
    intro j hj
    unfold Invocation.jobs at hj
    obtain ⟨f, hf, rfl⟩ := List.mem_map.mp hj
    exact ⟨rfl, rfl, rfl⟩
  have hprom : ∀ j ∈ i.jobs d o, ∀ stem ext, HasName j.inFile stem ext → '.' ∉ ext → Promised i j.inFile stem j.outFile := by
    intro j hj stem ext h1 h2
    have := jobs_promised ho j hj stem ext h1 h2 fun o ho' => (hout o ho').1
    exact this
  have hrs : ∀ j ∈ i.jobs d o, ¬ IsRs j.inFile := fun j hj => hi _ (hmem j hj)
  have hplace : ∀ j ∈ i.jobs d o, ∃ p, j.out n d = some p ∧ ∃ stem ext, HasName j.inFile stem ext ∧ '.' ∉ ext ∧ Promised i j.inFile stem p := by
    intro j hj
    obtain ⟨D, hD⟩ := run_outs hrun hd hrs j hj
    obtain ⟨stem, ⟨ext, h1, h2⟩, h3⟩ := hnames _ (hmem j hj)
    have hp : D.package = [] := printed_package hD (by
      rcases hpkg with hp | hp
      · exact .inl (by rw [(hcfg j hj).1]; exact hp)
      · exact .inr (hp _ (hmem j hj)))
    refine ⟨outPath [] j.outFile, by unfold Job.out; rw [hD]; simp only [Option.map_some]; rw [hp], stem, ext, h1, h2, ?_⟩
    refine (hprom j hj stem ext h1 h2).same ?_
    cases hO : i.output with
    | none => exact outPath_plain (jobs_name ho hO j hj stem ext h1 h2) h1.nonempty h3
    | some o' =>
      obtain ⟨hd', s, hs, hs'⟩ := hout o' hO
      have hoo : j.outFile = o' := by
        unfold Invocation.check at ho
        split at ho
        · cases ho
        split at ho
        · cases ho
        cases h2 : i.outputDir with
        | none =>
          simp only [hO, h2] at ho
          split at ho
          · cases ho
          · cases ho
            unfold Invocation.jobs at hj
            obtain ⟨f, hf, rfl⟩ := List.mem_map.mp hj
            simp only [hd', Bool.false_eq_true, if_false]
        | some o'' => simp only [hO, h2] at ho; cases ho
      rw [hoo]
      exact outPath_plain hs.name' hs.nonempty hs'
  have hN : ((i.jobs d o).map (Job.out n · d)).Nodup := by
    rw [← hin, List.pairwise_map] at hdiff
    unfold List.Nodup
    rw [List.pairwise_map]
    refine hdiff.imp_of_mem fun {a b} ha hb hab e => ?_
    obtain ⟨p, hp, s, e1, h3, h4, h1⟩ := hplace a ha
    obtain ⟨q, hq, t, e2, h5, h6, h2⟩ := hplace b hb
    rw [hp, hq] at e
    cases e
    exact hab s t p ⟨e1, h3, h4⟩ ⟨e2, h5, h6⟩ h1 h2
  intro f hf
  rw [← hin] at hf
  obtain ⟨j, hj, rfl⟩ := List.mem_map.mp hf
  obtain ⟨p, t, h1, h2, h3⟩ := C74_all_present_partial hrun hd hrs hN j hj ((hcfg j hj).2.2.trans hno)
  obtain ⟨p', hp', stem, ext, h4, h5, h6⟩ := hplace j hj
  rw [h1] at hp'
  cases hp'
  refine ⟨stem, p, t, ⟨ext, h4, h5⟩, h6, h3, ?_⟩
  rw [← (hcfg j hj).1, ← (hcfg j hj).2.1]
  exact text_generate h2

/-! ## The program -/

/-- `extension_matches` accepts exactly the paths with that extension. -/
theorem C86_extension {p ext : Str} (hp : FilePath p) (he : '.' ∉ ext) : extensionMatches p ext = true ↔ ∃ stem, HasName p stem ext := by
  unfold extensionMatches extension
  constructor
  · intro h
    cases hr : rsplitDot (splitSlash p).2 with
    | none => rw [hr] at h; simp at h
    | some x =>
      obtain ⟨a, b⟩ := x
      rw [hr] at h
      simp only at h
      cases ha : a.isEmpty with
      | true => rw [ha] at h; simp at h
      | false =>
        rw [ha] at h
        have hb : b = ext := by simpa using h
        subst hb
        have := (rsplitDot_some hr).1
        exact ⟨a, by simpa using ha, by rw [getLast_parts hp, this], hp⟩
  · rintro ⟨stem, h⟩
    rw [h.name', rsplit_append he]
    simp only
    rw [if_neg (by simpa using h.nonempty)]
    simp

/-- The exit code is 0 exactly if everything that was asked for was done: the arguments were accepted and the run succeeded. With
any other exit code, sources are as before, and so is the whole disk if the arguments are refused. -/
theorem C86_main (m : Matches) (junk : Str) (n : Nat) (d : Disk) :
    ((m.main junk n d).1 = 0 ↔ m.accepted = true ∧ m.invocation.run junk n d = (.ok (), (m.main junk n d).2)) ∧
    (m.accepted = false ∨ ¬ Allowed m.invocation d → (m.main junk n d).1 = 1 ∧ (m.main junk n d).2 = d) ∧
    ∀ p, ¬ IsRs p → (m.main junk n d).2.file p = d.file p := by
  unfold Matches.main
  cases ha : m.accepted with
  | false => exact ⟨⟨fun h => (by cases h), fun h => (by cases h.1)⟩, fun _ => ⟨rfl, rfl⟩, fun _ _ => rfl⟩
  | true =>
    simp only [if_true]
    refine ⟨?_, ?_, ?_⟩
    · cases hr : m.invocation.run junk n d with
      | mk r d' => cases r <;> simp
    · intro h
      rcases h with h | h
      · cases h
      · obtain ⟨e, he, _⟩ := C86_refused h junk n
        rw [he]
        exact ⟨rfl, rfl⟩
    · intro p hp
      have hk : (m.invocation.run junk n d).2.file p = d.file p := by
        unfold Invocation.run
        cases hc : m.invocation.check d with
        | error e => rfl
        | ok o => exact (C71_run (r := _) (d' := _) rfl).1 p hp
      cases hr : m.invocation.run junk n d with
      | mk r d' => rw [hr] at hk; cases r <;> exact hk

theorem proto_not_rs {p : Str} (h : extensionMatches p (c! "proto") = true) : ¬ IsRs p := by
  unfold extensionMatches extension at h
  cases hr : rsplitDot (splitSlash p).2 with
  | none => rw [hr] at h; simp at h
  | some x =>
    obtain ⟨a, b⟩ := x
    rw [hr] at h
    simp only at h
    cases ha : a.isEmpty with
    | true => rw [ha] at h; simp at h
    | false =>
      rw [ha] at h
      have hb : b = c! "proto" := by simpa using h
      subst hb
      have h1 := (rsplitDot_some hr).1
      have h2 := splitSlash_eq p
      rw [h1] at h2
      rintro ⟨t, ht⟩
      rw [h2] at ht
      have := congrArg (fun l => l.reverse.head?) ht
      simp at this

/-- On the command line, too: if `pb-rs` exits with code 0, then the code for every input is where the help text promises it, under
the conditions of `C86_written_partial`. -/
theorem C86_cli_partial {m : Matches} {junk : Str} {n : Nat} {d : Disk} (h : (m.main junk n d).1 = 0)
    (hd : NoRsImports d) (hno : m.noOutput = false) (hnames : ∀ f ∈ m.input, ∃ stem, Stem f stem ∧ PlainStem stem)
    (hout : ∀ o, m.output = some o → d.isDir o = false ∧ ∃ s, HasName o s (c! "rs") ∧ PlainStem s)
    (hpkg : m.singleMod = true ∨ ∀ f ∈ m.input, ∀ D imps, Reads d.file f D imps → D.package = [])
    (hdiff : m.input.Pairwise fun f g => ∀ s t p, Stem f s → Stem g t → Promised m.invocation f s p → ¬ Promised m.invocation g t p) :
    ∀ f ∈ m.input, ∃ stem p t, Stem f stem ∧ Promised m.invocation f stem p ∧ (m.main junk n d).2.file p = some t ∧
      generate d.file m.invocation.search m.invocation.cfg n f = some t := by
  obtain ⟨ha, hr⟩ := (C86_main m junk n d).1.mp h
  refine C86_written_partial hr hd (fun f hf => ?_) hno hnames hout hpkg hdiff
  unfold Matches.accepted at ha
  simp only [Bool.and_eq_true] at ha
  exact proto_not_rs (List.all_eq_true.mp ha.1.2 f hf)

/-- `splitComma` on the texts between commas. -/
theorem splitComma_join (s : Str) (ss : List Str) (h : ',' ∉ s) (hs : ∀ t ∈ ss, ',' ∉ t) :
    splitComma (s ++ ss.flatMap (',' :: ·)) = s :: ss := by
  induction s with
  | nil =>
    cases ss with
    | nil => rfl
    | cons t ts =>
      simp only [List.nil_append, List.flatMap_cons, List.cons_append, splitComma, if_true]
      exact congrArg _ (splitComma_join t ts (hs t (by simp)) fun x hx => hs x (by simp [hx]))
  | cons c cs ih =>
    have hc : c ≠ ',' := fun e => h (by simp [e])
    rw [List.cons_append, splitComma, if_neg hc, ih fun e => h (by simp [e])]
termination_by (ss.length, s.length)

/-- Every option of the command line has its effect: what the compiler gets is what was asked for. -/
theorem C86_options (m : Matches) : m.invocation.inFiles = m.input ∧ m.invocation.output = m.output ∧
    m.invocation.outputDir = m.outputDir ∧ m.invocation.includePaths = m.includePath.toList ∧ m.invocation.noOutput = m.noOutput ∧
    m.invocation.cfg.headers = !m.noHeaders ∧ m.invocation.cfg.errorCycle = m.cycle ∧ m.invocation.cfg.singleModule = m.singleMod ∧
    m.invocation.cfg.dontUseCow = m.dontUseCow ∧ m.invocation.cfg.owned = m.owned ∧ m.invocation.cfg.nostd = m.nostd ∧
    m.invocation.cfg.hashbrown = m.hashbrown ∧ m.invocation.cfg.genInfo = m.genInfo ∧
    m.invocation.cfg.addDeprecatedFields = m.addDeprecatedFields ∧ m.invocation.cfg.generateGetters = m.generateGetters ∧
    m.invocation.cfg.customRepr = m.customRepr ∧
    (∀ s ss, ',' ∉ s → (∀ t ∈ ss, ',' ∉ t) → m.customStructDerive = some (s ++ ss.flatMap (',' :: ·)) →
      m.invocation.cfg.customStructDerive = s :: ss) := by
  refine ⟨rfl, rfl, rfl, rfl, rfl, rfl, rfl, rfl, rfl, rfl, rfl, rfl, rfl, rfl, rfl, rfl, fun s ss h hs he => ?_⟩
  show splitComma (m.customStructDerive.getD []) = _
  rw [he]
  exact splitComma_join s ss h hs

namespace InvocationExample
open RunExample

/-- Two files of the same directory, one with a package. -/
def files : Disk := disk [(c! "src/one.proto", c! "message M { optional int32 f = 1; }"), (c! "src/two.proto", c! "message N { }"),
  (c! "src/three-a.proto", c! "message N { }"), (c! "src/pkg.proto", c! "package p; message N { }")] [c! "src", c! "out"]

/-- `pb-rs -d out src/one.proto src/two.proto`. -/
def two : Matches := { input := [c! "src/one.proto", c! "src/two.proto"], outputDir := some (c! "out") }

theorem one_stem : Stem (c! "src/one.proto") (c! "one") :=
  ⟨c! "proto", ⟨by decide, by decide, ⟨by decide, by decide⟩⟩, by decide⟩

theorem two_stem : Stem (c! "src/two.proto") (c! "two") :=
  ⟨c! "proto", ⟨by decide, by decide, ⟨by decide, by decide⟩⟩, by decide⟩

theorem plain {s : Str} (h : s.all (fun c => isAlpha c || isDigit c || c == '_') = true) (hk : rustKeywords.contains s = false) : PlainStem s := by
  refine ⟨fun c hc => ?_, by simpa using hk⟩
  have := List.all_eq_true.mp h c hc
  unfold IdentChar
  simp only [Bool.or_eq_true, beq_iff_eq, or_assoc] at this
  exact this

theorem Stem.unique {f s t : Str} (h1 : Stem f s) (h2 : Stem f t) : s = t := by
  obtain ⟨e, h1, he⟩ := h1
  obtain ⟨e', h2, he'⟩ := h2
  rw [← h1.fileStem he, h2.fileStem he']

/-- The hypotheses of `C86_written_partial` are met, and the code is there. -/
theorem C86_example : (two.main [] 5 files).1 = 0 ∧ Allowed two.invocation files ∧
    (two.main [] 5 files).2.file (c! "out/one.rs") = generate files.file [c! "."] two.invocation.cfg 5 (c! "src/one.proto") ∧
    ((two.main [] 5 files).2.file (c! "out/two.rs")).isSome = true ∧
    NoRsImports files ∧ (∀ f ∈ two.invocation.inFiles, ¬ IsRs f) ∧
    (∀ f ∈ two.invocation.inFiles, ∃ stem, Stem f stem ∧ PlainStem stem) ∧
    (∀ f ∈ two.invocation.inFiles, ∀ D imps, Reads files.file f D imps → D.package = []) ∧
    two.invocation.inFiles.Pairwise fun f g => ∀ s t p, Stem f s → Stem g t → Promised two.invocation f s p → ¬ Promised two.invocation g t p := by
  refine ⟨by decide +kernel, ⟨by decide, by decide +kernel, .inl rfl, fun h => absurd rfl h, fun o h => by cases h; decide +kernel⟩,
    by decide +kernel, by decide +kernel, noRs_of (by decide +kernel), by unfold IsRs; decide, ?_, ?_, ?_⟩
  · intro f hf
    rcases List.mem_cons.mp hf with rfl | hf
    · exact ⟨_, one_stem, plain (by decide +kernel) (by decide +kernel)⟩
    · cases List.mem_singleton.mp hf
      exact ⟨_, two_stem, plain (by decide +kernel) (by decide +kernel)⟩
  · rintro f hf D imps ⟨text, h1, h2⟩
    have key : ∀ f ∈ two.invocation.inFiles, ∀ text, files.file f = some text →
        (match parseFile f text with | .ok (D, _) => D.package | .error _ => []) = [] := by
      intro f hf text h1
      rcases List.mem_cons.mp hf with rfl | hf
      · have : text = c! "message M { optional int32 f = 1; }" := (Option.some.inj h1).symm
        subst this
        decide +kernel
      · cases List.mem_singleton.mp hf
        have : text = c! "message N { }" := (Option.some.inj h1).symm
        subst this
        decide +kernel
    have := key f hf text h1
    rw [h2] at this
    exact this
  · refine List.pairwise_cons.mpr ⟨fun g hg s t p h1 h2 h3 h4 => ?_, List.pairwise_singleton ..⟩
    cases List.mem_singleton.mp hg
    cases Stem.unique h1 one_stem
    cases Stem.unique h2 two_stem
    have h5 : FileIn (c! "out") (c! "one.rs") p := h3
    have h6 : FileIn (c! "out") (c! "two.rs") p := h4
    have h7 := h5.parts.symm.trans h6.parts
    revert h7
    decide

/-- `pb-rs -o out/code.rs src/pkg.proto` does not write `out/code.rs` but `out/p.rs`: the file has a package. -/
theorem C86_refuted_package : (({ input := [c! "src/pkg.proto"], output := some (c! "out/code.rs") } : Matches).main [] 5 files).1 = 0 ∧
    (({ input := [c! "src/pkg.proto"], output := some (c! "out/code.rs") } : Matches).main [] 5 files).2.file (c! "out/code.rs") = none ∧
    ((({ input := [c! "src/pkg.proto"], output := some (c! "out/code.rs") } : Matches).main [] 5 files).2.file (c! "out/p.rs")).isSome = true := by
  refine ⟨by decide +kernel, by decide +kernel, by decide +kernel⟩

/-- `pb-rs src/three-a.proto` does not write `src/three-a.rs` but `src/three_a.rs`. -/
theorem C86_refuted_name : (({ input := [c! "src/three-a.proto"] } : Matches).main [] 5 files).1 = 0 ∧
    (({ input := [c! "src/three-a.proto"] } : Matches).main [] 5 files).2.file (c! "src/three-a.rs") = none ∧
    ((({ input := [c! "src/three-a.proto"] } : Matches).main [] 5 files).2.file (c! "src/three_a.rs")).isSome = true := by
  refine ⟨by decide +kernel, by decide +kernel, by decide +kernel⟩

end InvocationExample

end QP.Pbrs
