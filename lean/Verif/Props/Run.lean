import Verif.Proofs.Run
/-!
# Properties of runs of pb-rs (C71-C76)
-/

set_option linter.unusedVariables false

namespace QP.Pbrs
open Parse

/-! ## C71: what a run touches -/

/-- Whatever happens (success, error, panic), generating code for one file changes nothing on the disk but the file it generates
and files called `mod.rs`, to which it only adds text at the end. -/
theorem C71_one {junk : Str} {n : Nat} {j : Job} {d d' : Disk} {r : Except RunError Unit} (h : writeProto junk n j d = (r, d')) :
    OnlyWrites (fun p => j.out n d = some p) d d' := by
  rcases writeProto_spec h with ⟨_, _, rfl⟩ | ⟨D, hD, d1, h1, h2⟩
  · exact .refl _ _
  · have h1 : OnlyWrites (fun p => j.out n d = some p) d d1 := h1.mono fun _ x => x.elim
    have hout : j.out n d = some (outPath D.package j.outFile) := by unfold Job.out; rw [hD]; rfl
    have hput : ∀ t, OnlyWrites (fun p => j.out n d = some p) d1 (d1.put (outPath D.package j.outFile) t) :=
      fun t => (OnlyWrites.put d1 _ t).mono fun p hp => by rw [hp]; exact hout
    rcases h2 with ⟨_, _, rfl⟩ | ⟨_, ⟨_, _, rfl⟩ | ⟨_, ⟨_, _, _, rfl⟩ | ⟨t, _, ⟨_, _, rfl⟩ | ⟨_, h3, hio⟩⟩⟩⟩
    · exact h1
    · exact h1
    · exact h1.trans (hput _)
    · exact h1.trans (hput _)
    · exact h1.trans ((hput t).trans (.updateMod h3))

/-- What is generated is a Rust source file, and not a `mod.rs`. -/
theorem C71_out {n : Nat} {j : Job} {d : Disk} {p : Str} (h : j.out n d = some p) : IsRs p ∧ ¬ IsModRs p := by
  unfold Job.out at h
  cases hD : j.compiled n d with
  | none => rw [hD] at h; cases h
  | some D =>
    rw [hD] at h
    cases h
    exact ⟨out_rs (compiled_package hD) _, out_not_mod (compiled_package hD) _⟩

theorem same_one {junk : Str} {n : Nat} {j : Job} {d d' : Disk} {r : Except RunError Unit} (h : writeProto junk n j d = (r, d')) :
    SameSources d d' := (C71_one h).same fun _ hp => (C71_out hp).1

/-- A run over several files (and any of its failures) leaves everything alone that is not a Rust source file: in particular all
`.proto` files; and it never removes a file or a directory. -/
theorem C71_run {junk : Str} {n : Nat} {js : List Job} : ∀ {d d' : Disk} {r : Except RunError Unit}, run junk n js d = (r, d') →
    (∀ p, ¬ IsRs p → d'.file p = d.file p) ∧ (∀ p, (d.file p).isSome → (d'.file p).isSome) ∧
      (∀ p, d.dir p = true → d'.dir p = true) ∧
      ∀ p text, IsModRs p → d.file p = some text → ∃ added, d'.file p = some (text ++ added) := by
  induction js with
  | nil =>
    intro d d' r h
    cases h
    exact ⟨fun _ _ => rfl, fun _ h => h, fun _ h => h, fun p t _ h => ⟨[], by rw [h, List.append_nil]⟩⟩
  | cons j js ih =>
    intro d d' r h
    have one : ∀ {r1 d1}, writeProto junk n j d = (r1, d1) → (∀ p, ¬ IsRs p → d1.file p = d.file p) ∧
        (∀ p, (d.file p).isSome → (d1.file p).isSome) ∧ (∀ p, d.dir p = true → d1.dir p = true) ∧
        ∀ p text, IsModRs p → d.file p = some text → ∃ added, d1.file p = some (text ++ added) := by
      intro r1 d1 h1
      have g := C71_one h1
      refine ⟨same_one h1, fun p hp => ?_, g.dirs, fun p text hp ht => g.mods p text (fun x => (C71_out x).2 hp) ht⟩
      obtain ⟨t, ht⟩ := Option.isSome_iff_exists.mp hp
      by_cases ho : j.out n d = some p
      · rcases writeProto_spec h1 with ⟨_, _, rfl⟩ | ⟨D, hD, d2, h2, h3⟩
        · exact hp
        · have hout : outPath D.package j.outFile = p := by
            unfold Job.out at ho
            rw [hD] at ho
            exact Option.some.inj ho
          have hd2 : (d2.file p).isSome := by
            obtain ⟨a, ha⟩ := h2.mods p t id ht
            rw [ha]; rfl
          have hput : ∀ t, ((d2.put (outPath D.package j.outFile) t).file p).isSome := by
            intro t
            show (if p = _ then some t else d2.file p).isSome = true
            split
            · rfl
            · exact hd2
          rcases h3 with ⟨_, _, rfl⟩ | ⟨_, ⟨_, _, rfl⟩ | ⟨_, ⟨_, _, _, rfl⟩ | ⟨t, _, ⟨_, _, rfl⟩ | ⟨_, h4, hio⟩⟩⟩⟩
          · exact hd2
          · exact hd2
          · exact hput _
          · exact hput _
          · obtain ⟨x, hx⟩ := Option.isSome_iff_exists.mp (hput t)
            obtain ⟨a, ha⟩ := (OnlyWrites.updateMod (o := fun _ => False) h4).mods p x id hx
            rw [ha]; rfl
      · obtain ⟨a, ha⟩ := g.mods p t ho ht
        rw [ha]; rfl
    rw [run] at h
    split at h
    · rename_i e d1 h1
      cases h
      exact one h1
    · rename_i d1 h1
      obtain ⟨a1, a2, a3, a4⟩ := one h1
      obtain ⟨b1, b2, b3, b4⟩ := ih h
      refine ⟨fun p hp => (b1 p hp).trans (a1 p hp), fun p hp => b2 p (a2 p hp), fun p hp => b3 p (a3 p hp), fun p t hp ht => ?_⟩
      obtain ⟨x, hx⟩ := a4 p t hp ht
      obtain ⟨y, hy⟩ := b4 p _ hp hx
      exact ⟨x ++ y, by rw [hy, List.append_assoc]⟩

/-! ## C72: a failing run -/

/-- An error in the input (a file that cannot be read or parsed, an import that is not found, a name that is not declared, …)
leaves the disk as it was. -/
theorem C72_unchanged_partial {junk : Str} {n : Nat} {j : Job} {d d' : Disk} {e : PbrsError}
    (h : writeProto junk n j d = (.error (.pbrs e), d')) : d' = d := by
  unfold writeProto at h
  split at h
  · cases h; rfl
  · simp only at h
    split at h
    · rename_i e' _ he
      exfalso
      have : ∀ (ps : List Str) {d d' : Disk} {out : Str} {e'}, enterDirs d out ps = (.error e', d') → e' = .panic := by
        intro ps
        induction ps with
        | nil => intro d d' out e' h; cases h
        | cons p ps ih =>
          intro d d' out e' h
          rw [enterDirs] at h
          split at h
          · exact ih h
          · split at h
            · cases h; rfl
            · exact ih h
      rw [this _ he] at h
      cases h
    · split at h
      · cases h
      · split at h
        · cases h
        · split at h
          · cases h
          · split at h
            · cases h
            · cases h

/-- The converse: an error in the input is reported. -/
theorem C72_reported {junk : Str} {n : Nat} {j : Job} {d : Disk} (h : j.compiled n d = none) :
    ∃ e, writeProto junk n j d = (.error (.pbrs e), d) := by
  unfold Job.compiled at h
  unfold writeProto
  split at h
  · cases h
  · rename_i e he
    exact ⟨e, by rw [he]⟩

/-! ## C73: a successful run -/

theorem put_file (d : Disk) (p t : Str) : (d.put p t).file p = some t := if_pos rfl

theorem updateMod_file {d d' : Disk} {p q : Str} (h : d.updateMod p = some d') (hq : ¬ IsModRs q) : d'.file q = d.file q :=
  (OnlyWrites.updateMod (o := fun _ => False) h).others q id hq

/-- After a successful run the output file has exactly the generated text. -/
theorem C73_written {junk : Str} {n : Nat} {j : Job} {d d' : Disk} (hn : j.noOutput = false)
    (h : writeProto junk n j d = (.ok (), d')) :
    ∃ p t, j.out n d = some p ∧ j.text n d = some t ∧ d'.file p = some t := by
  rcases writeProto_spec h with ⟨_, ⟨_, h1⟩, _⟩ | ⟨D, hD, d1, h1, h2⟩
  · cases h1
  · have hout : j.out n d = some (outPath D.package j.outFile) := by unfold Job.out; rw [hD]; rfl
    rcases h2 with ⟨_, h2, _⟩ | ⟨_, ⟨hn', _⟩ | ⟨_, ⟨_, h2, _⟩ | ⟨t, ht, ⟨h2, _⟩ | ⟨_, h3, hio⟩⟩⟩⟩
    · cases h2
    · rw [hn] at hn'; cases hn'
    · cases h2
    · cases h2
    · refine ⟨_, t, hout, ht, ?_⟩
      rw [updateMod_file h3 (C71_out hout).2]
      exact if_pos rfl

theorem scan_mentions {name : Str} {ls : List Str} (h : scanLines name ls = some true) : ∃ l ∈ ls, c! "pub mod " ++ name <:+: l := by
  induction ls with
  | nil => cases h
  | cons l ls ih =>
    simp only [scanLines] at h
    split at h
    · cases h
    · rename_i hl
      refine ⟨l, by simp, ?_⟩
      unfold lineRefers at hl
      split at hl
      · cases hl
      · rename_i rest hr
        split at hl
        · cases hl
        · split at hl
          · rename_i c hc _
            have hb : (rest.dropLast == name) = true := Option.some.inj hl
            have hb : rest.dropLast = name := by simpa using hb
            have key : ∀ (s : Str) {r : Str}, afterFirst PUB_MOD s = some r → PUB_MOD ++ r <:+: s := by
              intro s
              induction s with
              | nil =>
                intro r h
                rw [afterFirst] at h
                split at h
                · rename_i hp; exact absurd hp (by decide +kernel)
                · cases h
              | cons c cs ih =>
                intro r h
                rw [afterFirst] at h
                split at h
                · rename_i hp
                  cases h
                  obtain ⟨t, ht⟩ := List.isPrefixOf_iff_prefix.mp hp
                  rw [← ht, List.drop_left]
                  exact List.infix_refl _
                · exact (ih h).trans (List.suffix_cons c cs).isInfix
            have hm : c! "pub mod " = PUB_MOD := by decide +kernel
            rw [hm]
            refine List.IsInfix.trans ?_ (key l hr)
            rw [← hb]
            exact ((List.prefix_append_right_inj _).mpr (List.dropLast_prefix rest)).isInfix
          · cases hl
    · obtain ⟨l', h1, h2⟩ := ih h
      exact ⟨l', by simp [h1], h2⟩

theorem lines_infix {s l : Str} (h : l ∈ lines s) : l <:+: s := by
  have key : ∀ (s acc : Str), l ∈ linesFrom acc s → l <:+: acc ++ s := by
    intro s
    induction s with
    | nil =>
      intro acc h
      simp only [linesFrom] at h
      split at h
      · cases h
      · cases List.mem_singleton.mp h
        simp
    | cons c cs ih =>
      intro acc h
      simp only [linesFrom] at h
      split at h
      · rcases List.mem_cons.mp h with rfl | h
        · exact (stripCr_infix acc).trans (List.prefix_append acc _).isInfix
        · have := ih [] h
          exact this.trans ⟨acc ++ [c], [], by simp⟩
      · have := ih _ h
        simpa using this
  exact key s [] h

theorem afterFirst_of_infix {pat : Str} (s : Str) (h : pat <:+: s) : (afterFirst pat s).isSome = true := by
  induction s with
  | nil =>
    have : pat = [] := List.eq_nil_of_infix_nil h
    subst this
    rfl
  | cons c cs ih =>
    rw [afterFirst]
    split
    · rfl
    · rename_i hp
      rcases List.infix_cons_iff.mp h with h | h
      · exact absurd (List.isPrefixOf_iff_prefix.mpr h) hp
      · exact ih h

theorem infix_stripCr {pat l : Str} (hp : '\r' ∉ pat) (h : pat <:+: l) : pat <:+: stripCr l := by
  unfold stripCr
  split
  · rename_i hl
    obtain ⟨a, b, e⟩ := h
    have hne : l ≠ [] := by intro e; rw [e] at hl; cases hl
    rcases List.eq_nil_or_concat b with rfl | ⟨b', c, rfl⟩
    · rw [List.append_nil] at e
      by_cases hpn : pat = []
      · subst hpn; exact List.nil_infix
      · exfalso
        rw [← e, List.getLast?_append, List.getLast?_eq_some_getLast hpn] at hl
        exact hp (Option.some.inj hl ▸ List.getLast_mem hpn)
    · rw [List.concat_eq_append, ← List.append_assoc] at e
      rw [← e, List.dropLast_concat]
      exact ⟨a, b', rfl⟩
  · exact h

theorem mentions_after {file : Option Str} {name text : Str} (h : updateModFile file name = some (some text)) : ModMentions text name := by
  unfold updateModFile at h
  have hm : c! "pub mod " = PUB_MOD := by decide +kernel
  have hline : c! "pub mod " ++ name <:+: modLine name := by
    rw [hm]
    unfold modLine
    exact (List.prefix_append _ _).isInfix
  cases file with
  | none =>
    cases h
    exact Or.inl (hline.trans (List.suffix_append _ _).isInfix)
  | some t =>
    simp only at h
    split at h
    · cases h
    · rename_i hp
      cases h
      cases hl : lines text with
      | nil => rw [hl] at hp; cases hp
      | cons l ls =>
        rw [hl] at hp
        simp only [isPresent] at hp
        split at hp
        · obtain ⟨x, h1, h2⟩ := scan_mentions hp
          rw [← hl] at h1
          exact Or.inl (h2.trans (lines_infix h1))
        · rename_i hh
          refine Or.inr ?_
          have hsplit : ∃ first rest, text = first ++ rest ∧ (rest = [] ∨ ∃ r, rest = '\n' :: r) ∧ '\n' ∉ first := by
            refine ⟨text.takeWhile (· ≠ '\n'), text.dropWhile (· ≠ '\n'), (List.takeWhile_append_dropWhile ..).symm, ?_, ?_⟩
            · cases hd : text.dropWhile (fun x => decide (x ≠ '\n')) with
              | nil => exact Or.inl rfl
              | cons c cs =>
                refine Or.inr ⟨cs, ?_⟩
                have := List.head_dropWhile_not (fun x => decide (x ≠ '\n')) (l := text) (by rw [hd]; simp)
                simp only [hd, List.head_cons, decide_eq_false_iff_not, Decidable.not_not] at this
                rw [this]
            · intro hx
              have := List.all_takeWhile (p := fun x => decide (x ≠ '\n')) (l := text)
              have := List.all_eq_true.mp this _ hx
              simp at this
          obtain ⟨first, rest, h1, h2, h3⟩ := hsplit
          refine ⟨first, rest, h1, h2, h3, fun hi => ?_⟩
          have hH : c! "// Automatically generated mod.rs" = MAGIC_HEADER := by decide +kernel
          rw [hH] at hi
          have hfirst : l = stripCr first ∨ l = first := by
            rcases h2 with rfl | ⟨r, rfl⟩
            · rw [List.append_nil] at h1
              rw [h1, lines, lines_last h3] at hl
              split at hl
              · cases hl
              · right
                simpa using (List.cons.inj hl).1.symm
            · rw [h1, lines_line _ _ h3] at hl
              exact Or.inl (List.cons.inj hl).1.symm
          apply hh
          rcases hfirst with rfl | rfl
          · exact afterFirst_of_infix _ (infix_stripCr (by decide +kernel) hi)
          · exact afterFirst_of_infix _ hi
    · cases h
      exact Or.inl (hline.trans (List.suffix_append _ _).isInfix)

/-- After a successful run the `mod.rs` beside the output file mentions its module, unless that `mod.rs` is not one of pb-rs. -/
theorem C73_declared {junk : Str} {n : Nat} {j : Job} {d d' : Disk} (hn : j.noOutput = false)
    (h : writeProto junk n j d = (.ok (), d')) :
    ∃ p t, j.out n d = some p ∧ d'.file (modPath p) = some t ∧ ModMentions t (fileStem p) := by
  rcases writeProto_spec h with ⟨_, ⟨_, h1⟩, _⟩ | ⟨D, hD, d1, h1, h2⟩
  · cases h1
  · have hout : j.out n d = some (outPath D.package j.outFile) := by unfold Job.out; rw [hD]; rfl
    rcases h2 with ⟨_, h2, _⟩ | ⟨_, ⟨hn', _⟩ | ⟨_, ⟨_, h2, _⟩ | ⟨t, ht, ⟨h2, _⟩ | ⟨_, h3, hio⟩⟩⟩⟩
    · cases h2
    · rw [hn] at hn'; cases hn'
    · cases h2
    · cases h2
    · unfold Disk.updateMod at h3
      split at h3
      · rename_i x hx
        cases h3
        exact ⟨_, x, hout, if_pos rfl, mentions_after hx⟩
      · cases h3

theorem length_join {a b : Str} (hb : '/' ∉ b) (hn : b ≠ []) : a.length < (joinPath a b).length := by
  have : 0 < b.length := List.length_pos_iff.mpr hn
  unfold joinPath
  rw [relative hb]
  simp only [Bool.false_eq_true, if_false]
  split
  · rename_i h
    rw [List.isEmpty_iff.mp h]
    exact this
  · split
    · rw [List.length_append]; omega
    · rw [List.length_append, List.length_cons]; omega

theorem length_foldl {ps : List Str} (hp : ∀ p ∈ ps, '/' ∉ p ∧ p ≠ []) : ∀ {a : Str}, a.length ≤ (ps.foldl joinPath a).length := by
  induction ps with
  | nil => intro a; exact Nat.le_refl _
  | cons p ps ih =>
    intro a
    exact Nat.le_trans (Nat.le_of_lt (length_join (hp p (by simp)).1 (hp p (by simp)).2)) (ih (fun q hq => hp q (by simp [hq])))

/-- A directory name of a package. -/
def DirName (p : Str) : Prop := p ≠ [] ∧ '/' ∉ p ∧ '.' ∉ p

theorem foldl_name {p : Str} (hp : DirName p) (ps : List Str) (hps : ∀ p ∈ ps, DirName p) : ∀ {a : Str},
    ¬ IsModRs ((p :: ps).foldl joinPath a) := by
  induction ps generalizing p with
  | nil =>
    intro a h
    rw [isMod_name] at h
    simp only [List.foldl_cons, List.foldl_nil, splitSlash_join a hp.2.1] at h
    apply hp.2.2
    rw [h]
    decide
  | cons q qs ih =>
    intro a
    exact ih (p := q) (hps q (by simp)) (fun x hx => hps x (by simp [hx])) (a := joinPath a p)

/-- Directories of the package that pb-rs creates are declared in the `mod.rs` above them. -/
theorem enterDirs_declared {ps : List Str} : ∀ {d d' : Disk} {out dir : Str}, (∀ p ∈ ps, DirName p) → enterDirs d out ps = (.ok dir, d') →
    ∀ before p after, ps = before ++ p :: after → d.exists_ ((before ++ [p]).foldl joinPath out) = false →
      ∃ t, d'.file (modPath ((before ++ [p]).foldl joinPath out)) = some t ∧
        ∃ t0, ModMentions t0 (fileStem ((before ++ [p]).foldl joinPath out)) ∧ t0 <+: t := by
  induction ps with
  | nil => intro d d' out dir _ _ before p after hk; simp at hk
  | cons p ps ih =>
    intro d d' out dir hps h before q after hk hx
    rw [enterDirs] at h
    cases before with
    | nil =>
      simp only [List.nil_append, List.cons.injEq] at hk
      obtain ⟨rfl, rfl⟩ := hk
      simp only [List.nil_append, List.foldl_cons, List.foldl_nil] at hx ⊢
      rw [hx] at h
      simp only [Bool.false_eq_true, if_false] at h
      split at h
      · cases h
      · rename_i e he
        unfold Disk.updateMod at he
        split at he
        · rename_i t0 ht0
          cases he
          obtain ⟨a, ha⟩ := (OnlyWrites.enterDirs (o := fun _ => False) h).mods (modPath (joinPath out p)) t0 id (if_pos rfl)
          exact ⟨t0 ++ a, ha, t0, mentions_after ht0, List.prefix_append _ _⟩
        · cases he
    | cons b before =>
      simp only [List.cons_append, List.cons.injEq] at hk
      obtain ⟨rfl, rfl⟩ := hk
      simp only [List.cons_append, List.foldl_cons] at hx ⊢
      have hps' : ∀ x ∈ before ++ q :: after, DirName x := fun x hx => hps x (by simp only [List.mem_cons]; exact Or.inr hx)
      split at h
      · exact ih hps' h before q after rfl hx
      · split at h
        · cases h
        · rename_i e he
          refine ih hps' h before q after rfl ?_
          have hlen : (joinPath out p).length < ((before ++ [q]).foldl joinPath (joinPath out p)).length := by
            rw [List.foldl_append]
            have hq := hps' q (by simp)
            refine Nat.lt_of_le_of_lt (length_foldl (ps := before) (a := joinPath out p) fun x hx => ?_) (length_join hq.2.1 hq.1)
            have := hps' x (by simp [hx])
            exact ⟨this.2.1, this.1⟩
          have hmod : ¬ IsModRs ((before ++ [q]).foldl joinPath (joinPath out p)) := by
            refine foldl_name (p := p) (hps p (by simp)) (before ++ [q]) (fun x hx => hps' x ?_) (a := out)
            rcases List.mem_append.mp hx with hx | hx
            · exact List.mem_append_left _ hx
            · rw [List.mem_singleton.mp hx]
              exact List.mem_append_right _ (List.mem_cons_self ..)
          generalize (before ++ [q]).foldl joinPath (joinPath out p) = Q at *
          have hfile : e.file Q = d.file Q := (updateMod_file he hmod).trans rfl
          have hdir : e.dir Q = (d.mkdirs (joinPath out p)).dir Q := by
            unfold Disk.updateMod at he
            split at he
            · cases he; rfl
            · cases he
          have hdir : e.dir Q = d.dir Q := by
            rw [hdir]
            show (d.dir Q || Q == joinPath out p || (Q ++ ['/']).isPrefixOf (joinPath out p)) = d.dir Q
            have h1 : (Q == joinPath out p) = false := by
              simp only [beq_eq_false_iff_ne]
              intro e; rw [e] at hlen; omega
            have h2 : (Q ++ ['/']).isPrefixOf (joinPath out p) = false := by
              cases hh : (Q ++ ['/']).isPrefixOf (joinPath out p) with
              | false => rfl
              | true =>
                have := (List.isPrefixOf_iff_prefix.mp hh).length_le
                rw [List.length_append] at this
                omega
            rw [h1, h2]
            simp
          unfold Disk.exists_ Disk.isDir at hx ⊢
          rw [hfile, hdir]
          exact hx

/-- After a successful run, every directory of the package that was not there before is mentioned in the `mod.rs` above it. -/
theorem C73_dirs_partial {junk : Str} {n : Nat} {j : Job} {d d' : Disk} {D : FileDescriptor} (hn : j.noOutput = false)
    (h : writeProto junk n j d = (.ok (), d')) (hD : j.compiled n d = some D) (hps : ∀ p ∈ packageDirs D.package, DirName p)
    (before : List Str) (p : Str) (after : List Str) (hk : packageDirs D.package = before ++ p :: after)
    (hx : d.exists_ ((before ++ [p]).foldl joinPath (parentPath j.outFile)) = false) :
    ∃ t, d'.file (modPath ((before ++ [p]).foldl joinPath (parentPath j.outFile))) = some t ∧
      ∃ t0, ModMentions t0 (fileStem ((before ++ [p]).foldl joinPath (parentPath j.outFile))) ∧ t0 <+: t := by
  rcases writeProto_spec h with ⟨_, ⟨_, h1⟩, _⟩ | ⟨D', hD', d1, h1, h2⟩
  · cases h1
  · rw [hD] at hD'
    cases hD'
    have hout : j.out n d = some (outPath D.package j.outFile) := by unfold Job.out; rw [hD]; rfl
    rcases h2 with ⟨_, h2, _⟩ | ⟨hd1, ⟨hn', _⟩ | ⟨_, ⟨_, h2, _⟩ | ⟨t, ht, ⟨h2, _⟩ | ⟨_, h3, hio⟩⟩⟩⟩
    · cases h2
    · rw [hn] at hn'; cases hn'
    · cases h2
    · cases h2
    · obtain ⟨x, h4, t0, h5, h6⟩ := enterDirs_declared hps hd1 before p after hk hx
      have h7 : (d1.put (outPath D.package j.outFile) t).file (modPath ((before ++ [p]).foldl joinPath (parentPath j.outFile))) = some x := by
        show (if _ then _ else _) = _
        rw [if_neg fun e => (C71_out hout).2 (by rw [← e]; exact isMod_modPath _)]
        exact h4
      obtain ⟨a, ha⟩ := (OnlyWrites.updateMod (o := fun _ => False) h3).mods _ x id h7
      exact ⟨x ++ a, ha, t0, h5, h6.trans (List.prefix_append _ _)⟩

/-! ## C74: several files -/

theorem run_keeps {junk : Str} {n : Nat} {js : List Job} : ∀ {d d' : Disk} {r : Except RunError Unit}, run junk n js d = (r, d') →
    NoRsImports d → (∀ j ∈ js, ¬ IsRs j.inFile) → ∀ p, ¬ IsModRs p → (∀ j ∈ js, j.out n d ≠ some p) → d'.file p = d.file p := by
  induction js with
  | nil => intro d d' r h _ _ p _ _; cases h; rfl
  | cons j js ih =>
    intro d d' r h hd hj p hp ho
    rw [run] at h
    split at h
    · rename_i e d1 h1
      cases h
      exact (C71_one h1).others p (ho j (by simp)) hp
    · rename_i d1 h1
      have hs := same_one h1
      refine (ih h (hd.same hs) (fun x hx => hj x (by simp [hx])) p hp fun x hx => ?_).trans ((C71_one h1).others p (ho j (by simp)) hp)
      rw [out_same hs hd (hj x (by simp [hx]))]
      exact ho x (by simp [hx])

/-- After a successful run over files whose outputs have different paths, every output has the text generated from its own
file, as if it had been the only one. -/
theorem C74_all_present_partial {junk : Str} {n : Nat} {js : List Job} : ∀ {d d' : Disk}, run junk n js d = (.ok (), d') →
    NoRsImports d → (∀ j ∈ js, ¬ IsRs j.inFile) → (js.map (Job.out n · d)).Nodup → ∀ j ∈ js, j.noOutput = false →
    ∃ p t, j.out n d = some p ∧ j.text n d = some t ∧ d'.file p = some t := by
  induction js with
  | nil => intro d d' h _ _ _ j hj; cases hj
  | cons j js ih =>
    intro d d' h hd hj hN x hx hn
    rw [run] at h
    split at h
    · cases h
    · rename_i d1 h1
      have hs := same_one h1
      rw [List.map_cons, List.nodup_cons] at hN
      have hmap : js.map (Job.out n · d1) = js.map (Job.out n · d) :=
        List.map_congr_left fun y hy => out_same hs hd (hj y (by simp [hy]))
      rcases List.mem_cons.mp hx with rfl | hx
      · obtain ⟨p, t, ho, ht, hf⟩ := C73_written hn h1
        refine ⟨p, t, ho, ht, ?_⟩
        rw [run_keeps h (hd.same hs) (fun y hy => hj y (by simp [hy])) p (C71_out ho).2 fun y hy e => ?_]
        · exact hf
        · apply hN.1
          rw [ho, ← hmap, ← e]
          exact List.mem_map.mpr ⟨y, hy, rfl⟩
      · obtain ⟨p, t, ho, ht, hf⟩ := ih h (hd.same hs) (fun y hy => hj y (by simp [hy])) (by rw [hmap]; exact hN.2) x hx hn
        have hjx := hj x (by simp [hx])
        exact ⟨p, t, by rw [← ho, out_same hs hd hjx], by rw [← ht, text_same hs hd hjx], hf⟩

/-! ## C75: running again -/

theorem modsEnd_update {d d' : Disk} {p : Str} (h : d.updateMod p = some d') (hd : ModsEndLines d) : ModsEndLines d' := by
  unfold Disk.updateMod at h
  split at h
  · rename_i t ht
    cases h
    intro q x hq hx
    change (if q = modPath p then some t else d.file q) = some x at hx
    split at hx
    · cases hx
      rcases C59_append_only _ _ _ ht with ⟨_, h1⟩ | ⟨y, h1, h2 | h2⟩
      · cases h1
        rw [modFile_eq]
        exact ⟨MAGIC_HEADER ++ '\n' :: (PUB_MOD ++ fileStem p ++ [';']), by simp [modLine]⟩
      · cases h2
        exact hd _ _ hq (by rename_i e; rw [e]; exact h1)
      · cases h2
        rw [line_end_text]
        exact ⟨y ++ "pub mod ".toList ++ fileStem p ++ [';'], by simp⟩
    · exact hd q x hq hx
  · cases h

theorem modsEnd_dirs {ps : List Str} : ∀ {d d' : Disk} {out : Str} {r : Except RunError Str}, enterDirs d out ps = (r, d') →
    ModsEndLines d → ModsEndLines d' := by
  induction ps with
  | nil => intro d d' out r h hd; cases h; exact hd
  | cons p ps ih =>
    intro d d' out r h hd
    rw [enterDirs] at h
    split at h
    · exact ih h hd
    · split at h
      · cases h; exact hd
      · rename_i e he
        exact ih h (modsEnd_update he hd)

theorem modsEnd_put {d : Disk} {p t : Str} (hp : ¬ IsModRs p) (hd : ModsEndLines d) : ModsEndLines (d.put p t) := by
  intro q x hq hx
  change (if q = p then some t else d.file q) = some x at hx
  rw [if_neg fun e : q = p => hp (e ▸ hq)] at hx
  exact hd q x hq hx

theorem Disk.ext' {d e : Disk} (h : ∀ p, d.file p = e.file p) (h' : d.dir = e.dir) : d = e := by
  cases d; cases e
  simp only [Disk.mk.injEq]
  exact ⟨funext h, h'⟩

theorem fileStem_chars {p : Str} {c : Char} (h : c ∈ fileStem p) : c ∈ (splitSlash p).2 := by
  unfold fileStem at h
  split at h
  · rename_i a b hr
    split at h
    · exact h
    · exact mem_rsplit hr (Or.inl h)
  · exact h

theorem updateMod_twice {d d' : Disk} {p : Str} (hp : '\n' ∉ fileStem p) (hd : ModsEndLines d) (h : d.updateMod p = some d') :
    d'.updateMod p = some d' := by
  unfold Disk.updateMod at h
  split at h
  · rename_i t ht
    cases h
    have h2 : updateModFile (some t) (fileStem p) = some (some t) := by
      cases hf : d.file (modPath p) with
      | none =>
        rw [hf] at ht
        cases ht
        have := update_modFile (fileStem p) [fileStem p] (fun n hn => by rw [List.mem_singleton.mp hn]; exact hp)
        rw [modFile_eq] at this
        simp only [List.flatMap_cons, List.flatMap_nil, List.append_nil] at this
        have e : MAGIC_HEADER ++ ['\n'] ++ modLine (fileStem p) = MAGIC_HEADER ++ '\n' :: modLine (fileStem p) := by simp
        rw [e, this]
        simp
      | some x =>
        rw [hf] at ht
        obtain ⟨y, hy⟩ := hd _ _ (isMod_modPath p) hf
        exact C59_idempotent_partial x _ hp y hy _ ht
    unfold Disk.updateMod
    have h3 : (d.put (modPath p) t).file (modPath p) = some t := if_pos rfl
    rw [h3, h2]
    simp only [Option.some.injEq]
    refine Disk.ext' (fun q => ?_) rfl
    show (if q = modPath p then some t else _) = _
    split
    · rename_i e; rw [e]; exact h3.symm
    · rfl
  · cases h

theorem put_put (d : Disk) (p t u : Str) : (d.put p t).put p u = d.put p u := by
  refine Disk.ext' (fun q => ?_) rfl
  show (if q = p then some u else if q = p then some t else d.file q) = if q = p then some u else d.file q
  split <;> rfl

theorem updateMod_dir {d d' : Disk} {p : Str} (h : d.updateMod p = some d') : d'.dir = d.dir := by
  unfold Disk.updateMod at h
  split at h
  · cases h; rfl
  · cases h

theorem out_stem {n : Nat} {j : Job} {d : Disk} {D : FileDescriptor} (hD : j.compiled n d = some D) :
    '\n' ∉ fileStem (outPath D.package j.outFile) := by
  intro h
  have := fileStem_chars h
  unfold outPath at this
  rw [splitSlash_join _ fun hc => (outName_chars (compiled_package hD) hc).1 rfl] at this
  exact (outName_chars (compiled_package hD) this).2 rfl

/-- Generating again changes nothing. -/
theorem C75_again_partial {junk junk' : Str} {n : Nat} {j : Job} {d d' : Disk} (hd : NoRsImports d) (hj : ¬ IsRs j.inFile)
    (hm : ModsEndLines d) (hn : j.noOutput = false) (h : writeProto junk n j d = (.ok (), d')) :
    writeProto junk' n j d' = (.ok (), d') := by
  have hs := same_one h
  rcases writeProto_spec h with ⟨_, ⟨_, h1⟩, _⟩ | ⟨D, hD, d1, h1, h2⟩
  · cases h1
  · have hout : j.out n d = some (outPath D.package j.outFile) := by unfold Job.out; rw [hD]; rfl
    rcases h2 with ⟨_, h2, _⟩ | ⟨hd1, ⟨hn', _⟩ | ⟨_, ⟨_, h2, _⟩ | ⟨t, ht, ⟨h2, _⟩ | ⟨_, h3, hio⟩⟩⟩⟩
    · cases h2
    · rw [hn] at hn'; cases hn'
    · cases h2
    · cases h2
    · have hmod := (C71_out hout).2
      have hdir : d'.dir = d1.dir := (updateMod_dir h3).trans rfl
      have hx : AllExist d' (parentPath j.outFile) (packageDirs D.package) := by
        refine (enterDirs_exist hd1).mono fun p hp => ?_
        have h4 : (d1.put (outPath D.package j.outFile) t).exists_ p = true := by
          unfold Disk.exists_ Disk.isDir at hp ⊢
          simp only [Bool.or_eq_true] at hp ⊢
          rcases hp with hp | hp
          · refine Or.inl ?_
            show (if p = _ then some t else d1.file p).isSome = true
            split
            · rfl
            · exact hp
          · exact Or.inr hp
        exact exists_mono (o := fun _ => False) (.updateMod h3) h4 id
      have hfile : d'.put (outPath D.package j.outFile) t = d' := by
        refine Disk.ext' (fun q => ?_) rfl
        show (if q = _ then some t else d'.file q) = d'.file q
        split
        · rename_i e
          rw [e, updateMod_file h3 hmod]
          exact (if_pos rfl).symm
        · rfl
      refine writeProto_replay (by rw [compiled_same hs hd hj, hD]) (by rw [text_same hs hd hj, ht]) hn hx ?_ ?_
      · unfold Disk.isDir at hio ⊢
        rw [hdir]
        exact hio
      · rw [hfile]
        exact updateMod_twice (out_stem hD) (modsEnd_put hmod (modsEnd_dirs hd1 hm)) h3

/-- A run that is interrupted after the directories of the package were made, when any part of the output has been written, can be
repeated: the result is that of an uninterrupted run. -/
theorem C75_interrupted_partial {junk junk' part dir : Str} {n : Nat} {j : Job} {d d1 d' : Disk} {D : FileDescriptor}
    (hd : NoRsImports d) (hj : ¬ IsRs j.inFile) (hn : j.noOutput = false) (h : writeProto junk n j d = (.ok (), d'))
    (hD : j.compiled n d = some D) (h1 : enterDirs d (parentPath j.outFile) (packageDirs D.package) = (.ok dir, d1)) :
    writeProto junk' n j (d1.put (outPath D.package j.outFile) part) = (.ok (), d') := by
  have hout : j.out n d = some (outPath D.package j.outFile) := by unfold Job.out; rw [hD]; rfl
  rcases writeProto_spec h with ⟨_, ⟨_, h1⟩, _⟩ | ⟨D', hD', d1', hw, h2⟩
  · cases h1
  · rw [hD] at hD'
    cases hD'
    rcases h2 with ⟨_, h2, _⟩ | ⟨hd1, ⟨hn', _⟩ | ⟨_, ⟨_, h2, _⟩ | ⟨t, ht, ⟨h2, _⟩ | ⟨_, h3, hio⟩⟩⟩⟩
    · cases h2
    · rw [hn] at hn'; cases hn'
    · cases h2
    · cases h2
    · rw [h1] at hd1
      cases hd1
      have hs : SameSources d (d1.put (outPath D.package j.outFile) part) :=
        (hw.same fun _ x => x.elim).trans ((OnlyWrites.put _ _ _).same fun p hp => by rw [hp]; exact (C71_out hout).1)
      refine writeProto_replay (by rw [compiled_same hs hd hj, hD]) (by rw [text_same hs hd hj, ht]) hn ?_ hio (by rw [put_put]; exact h3)
      refine (enterDirs_exist h1).mono fun p hp => ?_
      unfold Disk.exists_ Disk.isDir at hp ⊢
      simp only [Bool.or_eq_true] at hp ⊢
      rcases hp with hp | hp
      · refine Or.inl ?_
        show (if p = _ then some part else d1.file p).isSome = true
        split
        · rfl
        · exact hp
      · exact Or.inr hp

/-! ## C76: `--no-output` -/

/-- With `--no-output` no Rust source file but `mod.rs` files is written, and nothing at all if the package has at most one part. -/
theorem C76_no_output_partial {junk : Str} {n : Nat} {j : Job} {d d' : Disk} {r : Except RunError Unit} (hn : j.noOutput = true)
    (h : writeProto junk n j d = (r, d')) :
    (∀ p, ¬ IsModRs p → d'.file p = d.file p) ∧
      ∀ D, j.compiled n d = some D → '.' ∉ D.package → d' = d := by
  rcases writeProto_spec h with ⟨hc, _, rfl⟩ | ⟨D, hD, d1, h1, h2⟩
  · exact ⟨fun _ _ => rfl, fun _ _ _ => rfl⟩
  · have hd' : d' = d1 := by
      rcases h2 with ⟨_, _, rfl⟩ | ⟨_, ⟨_, _, rfl⟩ | ⟨hn', _⟩⟩
      · rfl
      · rfl
      · rw [hn] at hn'; cases hn'
    refine ⟨fun p hp => ?_, fun D' hD' hp => ?_⟩
    · rw [hd']; exact h1.others p id hp
    · rw [hD] at hD'
      cases hD'
      have hdirs : packageDirs D.package = [] := by
        have h3 : (splitPackage D.package).1 = [] := by
          unfold splitPackage
          split
          · rfl
          · rw [rsplitDot_none.mpr hp]
        unfold packageDirs
        rw [h3]
        rfl
      unfold writeProto at h
      unfold Job.compiled at hD
      split at hD
      · rename_i D0 h0
        cases hD
        rw [h0] at h
        simp only [hdirs, enterDirs, hn, if_true] at h
        cases h
        rfl
      · cases hD

/-! ## Examples and refutations -/

namespace RunExample

/-- A disk with the given files and directories. -/
def disk (files : List (Str × Str)) (dirs : List Str) : Disk := { file := fun p => files.lookup p, dir := fun p => dirs.contains p }

/-- One file of package `a.b`. -/
def ab : Disk := disk [(c! "x.proto", c! "package a.b; message M { optional int32 f = 1; }")] []

def abJob : Job := { inFile := c! "x.proto", outFile := c! "x.rs" }

/-- What is left on a disk at some paths, and whether the run succeeded. -/
def left (r : Except RunError Unit × Disk) (ps : List Str) : Bool × List (Option Str) :=
  ((match r.1 with | .ok _ => true | .error _ => false), ps.map r.2.file)

theorem abRuns : left (writeProto [] 1 abJob ab) [c! "mod.rs", c! "a/mod.rs", c! "x.rs", c! "b.rs"] =
    (true, [some (c! "// Automatically generated mod.rs\npub mod a;\n"), some (c! "// Automatically generated mod.rs\npub mod b;\n"), none, none]) ∧
    abJob.out 1 ab = some (c! "a/b.rs") := by
  refine ⟨?_, ?_⟩ <;> decide +kernel

theorem lookup_mem {l : List (Str × Str)} {p t : Str} (h : l.lookup p = some t) : (p, t) ∈ l := by
  induction l with
  | nil => cases h
  | cons x l ih =>
    obtain ⟨a, b⟩ := x
    rw [List.lookup_cons] at h
    split at h
    · rename_i e
      cases h
      have : p = a := by simpa using e
      rw [this]
      exact List.mem_cons_self ..
    · exact List.mem_cons_of_mem _ (ih h)

/-- The imports of a text. -/
def importsOf (text : Str) : List Str :=
  match readProto text with
  | .ok F _ => F.imports
  | _ => []

theorem noRs_of {files : List (Str × Str)} {dirs : List Str} (h : (files.all fun f => (importsOf f.2).isEmpty) = true) :
    NoRsImports (disk files dirs) := by
  intro p text F r _ ht hF i hi
  have := List.all_eq_true.mp h _ (lookup_mem ht)
  have e : importsOf text = F.imports := by unfold importsOf; rw [hF]
  simp only [e, List.isEmpty_iff] at this
  rw [this] at hi
  cases hi

theorem fst_ok {r : Except RunError Unit × Disk} {ps : List Str} {x : List (Option Str)} (h : left r ps = (true, x)) : r = (.ok (), r.2) := by
  obtain ⟨a, b⟩ := r
  cases a with
  | ok u => rfl
  | error e => cases congrArg Prod.fst h

/-- The conditions of C75 are met. -/
example : NoRsImports ab ∧ ModsEndLines ab ∧ ¬ IsRs abJob.inFile ∧ ∃ d', writeProto [] 1 abJob ab = (.ok (), d') := by
  refine ⟨noRs_of (by decide +kernel), fun p t hp ht => ?_, ?_, _, fst_ok abRuns.1⟩
  · have := lookup_mem (ht : List.lookup p _ = _)
    simp only [List.mem_singleton, Prod.mk.injEq] at this
    rw [this.1, isMod_name] at hp
    exact absurd hp (by decide)
  · unfold IsRs
    decide

/-- The conditions of C73_dirs_partial are met: the directory `a` of the package is not there. -/
example : ∃ D, abJob.compiled 1 ab = some D ∧ packageDirs D.package = [] ++ c! "a" :: [] ∧ (∀ p ∈ packageDirs D.package, DirName p) ∧
    ab.exists_ (([] ++ [c! "a"]).foldl joinPath (parentPath abJob.outFile)) = false := by
  have h : (match abJob.compiled 1 ab with | some D => decide (packageDirs D.package = [c! "a"]) | none => false) = true := by
    decide +kernel
  split at h
  · rename_i D hD
    have h := of_decide_eq_true h
    refine ⟨D, hD, h, ?_, by decide +kernel⟩
    rw [h]
    intro p hp
    rw [List.mem_singleton.mp hp]
    exact ⟨by decide, by decide, by decide⟩
  · cases h

/-- The conditions of C74 are met by two files of different packages. -/
def two : Disk := disk [(c! "x.proto", c! "package p; message M { }"), (c! "y.proto", c! "package q; message N { }")] []

def twoJobs : List Job := [{ inFile := c! "x.proto", outFile := c! "x.rs" }, { inFile := c! "y.proto", outFile := c! "y.rs" }]

example : NoRsImports two ∧ (∀ j ∈ twoJobs, ¬ IsRs j.inFile) ∧ (twoJobs.map (Job.out 1 · two)).Nodup ∧
    ∃ d', run [] 1 twoJobs two = (.ok (), d') := by
  refine ⟨noRs_of (by decide +kernel), ?_, by decide +kernel, _, fst_ok (ps := []) (x := []) (by decide +kernel)⟩
  unfold IsRs
  decide

end RunExample

open RunExample in
/-- C74 is false of files of the same package: the second output replaces the first. -/
theorem C74_refuted : ∃ d : Disk, ∃ js : List Job, NoRsImports d ∧ (∀ j ∈ js, ¬ IsRs j.inFile) ∧ js.length = 2 ∧
    (run [] 1 js d).1.isOk = true ∧ js.map (Job.out 1 · d) = [some (c! "p.rs"), some (c! "p.rs")] ∧
    ∃ j0 j1 : Job, js = [j0, j1] ∧ j0.text 1 d ≠ j1.text 1 d ∧ (run [] 1 js d).2.file (c! "p.rs") = j1.text 1 d :=
  ⟨disk [(c! "x.proto", c! "package p; message M { }"), (c! "y.proto", c! "package p; message N { }")] [],
    [{ inFile := c! "x.proto", outFile := c! "x.rs" }, { inFile := c! "y.proto", outFile := c! "y.rs" }],
    noRs_of (by decide +kernel), by unfold IsRs; decide, rfl, by decide +kernel, by decide +kernel, _, _, rfl, by decide +kernel, by decide +kernel⟩

namespace RunExample

/-- A map in a `oneof`, and the output of an earlier run. -/
def bad : Disk := disk [(c! "x.proto", c! "message M { oneof o { map<string, int32> f = 1; } }"), (c! "x.rs", c! "fn good() {}")] []

end RunExample

open RunExample in
/-- C72 is false of schemas that cannot be printed (here a map in a `oneof`): the output of an earlier run is destroyed. -/
theorem C72_refuted : ∃ (d : Disk) (j : Job), d.file (c! "x.rs") = some (c! "fn good() {}") ∧
    ∀ junk : Str, ∃ e d', writeProto junk 1 j d = (.error (.emit e), d') ∧ d'.file (c! "x.rs") = some junk := by
  have h : (match abJob.compiled 1 bad with
    | some D => decide (packageDirs D.package = []) && decide (outPath D.package abJob.outFile = c! "x.rs") && (abJob.text 1 bad).isNone
    | none => false) = true := by decide +kernel
  split at h
  · rename_i D hD
    simp only [Bool.and_eq_true, decide_eq_true_eq, Option.isNone_iff_eq_none] at h
    obtain ⟨⟨h1, h2⟩, h3⟩ := h
    refine ⟨bad, abJob, by decide +kernel, fun junk => ?_⟩
    obtain ⟨e, he⟩ := writeProto_fail (junk := junk) hD h3 rfl (by rw [h1]; trivial) (by rw [h2]; decide +kernel)
    refine ⟨e, _, he, ?_⟩
    rw [h2]
    exact put_file _ _ _
  · cases h

open RunExample in
/-- C73 is false of directories that are there already: `a` is not declared in any `mod.rs`. -/
theorem C73_refuted : ∃ (d : Disk) (j : Job), (writeProto [] 1 j d).1.isOk = true ∧ j.out 1 d = some (c! "a/b.rs") ∧
    (writeProto [] 1 j d).2.file (c! "mod.rs") = none :=
  ⟨disk [(c! "x.proto", c! "package a.b; message M { optional int32 f = 1; }")] [c! "a"], abJob, by decide +kernel, by decide +kernel,
    by decide +kernel⟩

open RunExample in
/-- C75 is false of a run that is interrupted after a directory was made: repeating it does not declare the directory, which an
uninterrupted run does. -/
theorem C75_refuted : ∃ (d : Disk) (j : Job), (writeProto [] 1 j d).1.isOk = true ∧ (writeProto [] 1 j (d.mkdirs (c! "a"))).1.isOk = true ∧
    ((writeProto [] 1 j d).2.file (c! "mod.rs")).isSome = true ∧ (writeProto [] 1 j (d.mkdirs (c! "a"))).2.file (c! "mod.rs") = none :=
  ⟨ab, abJob, by decide +kernel, by decide +kernel, by decide +kernel, by decide +kernel⟩

open RunExample in
/-- C76 is false of packages with more parts: directories and `mod.rs` files are made. -/
theorem C76_refuted : ∃ (d : Disk) (j : Job), j.noOutput = true ∧ (writeProto [] 1 j d).1.isOk = true ∧
    d.file (c! "mod.rs") = none ∧ (writeProto [] 1 j d).2.file (c! "mod.rs") = some (c! "// Automatically generated mod.rs\npub mod a;\n") :=
  ⟨ab, { abJob with noOutput := true }, rfl, by decide +kernel, by decide +kernel, by decide +kernel⟩

end QP.Pbrs
