import Verif.Spec.Run
import Verif.Proofs.Idents
import Verif.Props.Names
import Verif.Props.ModFile
import Verif.Props.Imports
/-!
# A run of pb-rs
-/

set_option linter.unusedVariables false

namespace QP.Pbrs
open Parse

/-! ## Paths -/

theorem takeWhile_rev {x b : Str} (hb : '/' ∉ b) (hx : x = [] ∨ ∃ y, x = y ++ ['/']) : splitSlash (x ++ b) = (x, b) := by
  have h1 : ∀ c ∈ b.reverse, decide (c ≠ '/') = true := by
    intro c hc
    simp only [decide_eq_true_eq]
    exact fun e => hb (e ▸ List.mem_reverse.mp hc)
  unfold splitSlash
  rw [List.reverse_append, List.dropWhile_append_of_pos h1, List.takeWhile_append_of_pos h1]
  rcases hx with rfl | ⟨y, rfl⟩
  · simp
  · simp

theorem joinPath_split (a : Str) {b : Str} (hb : isAbsolute b = false) : ∃ x, (x = [] ∨ ∃ y, x = y ++ ['/']) ∧ joinPath a b = x ++ b := by
  unfold joinPath
  rw [hb]
  simp only [Bool.false_eq_true, if_false]
  split
  · exact ⟨[], Or.inl rfl, rfl⟩
  · split
    · rename_i h
      refine ⟨a, Or.inr ⟨a.dropLast, ?_⟩, rfl⟩
      have hne : a ≠ [] := by intro e; rw [e] at h; cases h
      have h2 := List.getLast?_eq_some_getLast hne
      rw [h] at h2
      have h3 := List.dropLast_concat_getLast hne
      rw [← Option.some.inj h2] at h3
      exact h3.symm
    · exact ⟨a ++ ['/'], Or.inr ⟨a, rfl⟩, by simp⟩

theorem relative {b : Str} (hb : '/' ∉ b) : isAbsolute b = false := by
  unfold isAbsolute
  cases b with
  | nil => rfl
  | cons c cs =>
    have : c ≠ '/' := fun e => hb (by simp [e])
    simp [this]

theorem splitSlash_join (a : Str) {b : Str} (hb : '/' ∉ b) : (splitSlash (joinPath a b)).2 = b := by
  obtain ⟨x, hx, h⟩ := joinPath_split a (relative hb)
  rw [h, takeWhile_rev hb hx]

theorem isMod_name {p : Str} : IsModRs p ↔ (splitSlash p).2 = c! "mod.rs" := by
  constructor
  · rintro (rfl | ⟨d, rfl⟩)
    · decide
    · have : d ++ c! "/mod.rs" = (d ++ ['/']) ++ c! "mod.rs" := by simp
      rw [this, takeWhile_rev (by decide) (Or.inr ⟨d, rfl⟩)]
  · intro h
    have h1 : p = (splitSlash p).1 ++ (splitSlash p).2 := by
      unfold splitSlash
      simp only
      rw [← List.reverse_append, List.takeWhile_append_dropWhile, List.reverse_reverse]
    have h2 : (splitSlash p).1 = [] ∨ ∃ y, (splitSlash p).1 = y ++ ['/'] := by
      unfold splitSlash
      simp only
      cases hd : p.reverse.dropWhile (fun x => decide (x ≠ '/')) with
      | nil => exact Or.inl rfl
      | cons c cs =>
        refine Or.inr ⟨cs.reverse, ?_⟩
        have := List.head_dropWhile_not (fun x => decide (x ≠ '/')) (l := p.reverse) (by rw [hd]; simp)
        simp only [hd, List.head_cons, decide_eq_false_iff_not, Decidable.not_not] at this
        rw [this]
        simp
    rw [h] at h1
    rcases h2 with h2 | ⟨y, h2⟩ <;> rw [h2] at h1
    · exact Or.inl h1
    · exact Or.inr ⟨y, by rw [h1]; simp⟩

theorem isMod_modPath (p : Str) : IsModRs (modPath p) := isMod_name.mpr (splitSlash_join _ (by decide))

theorem isMod_rs {p : Str} (h : IsModRs p) : IsRs p := by
  rcases h with rfl | ⟨d, rfl⟩
  · exact (by decide : c! ".rs" <:+ c! "mod.rs")
  · exact List.IsSuffix.trans (by decide : c! ".rs" <:+ c! "/mod.rs") (List.suffix_append d _)

theorem rs_join {a b : Str} (h : IsRs (joinPath a b)) : IsRs b := by
  by_cases hb : isAbsolute b = true
  · unfold joinPath at h
    rw [hb] at h
    exact h
  · obtain ⟨x, hx, e⟩ := joinPath_split a (by simpa using hb)
    rw [e] at h
    unfold IsRs at h ⊢
    rcases List.suffix_or_suffix_of_suffix h (List.suffix_append x b) with h1 | h1
    · exact h1
    · obtain ⟨t, ht⟩ := h1
      obtain ⟨u, hu⟩ := h
      rw [← ht, ← List.append_assoc] at hu
      have hu := List.append_cancel_right hu
      cases ht' : t with
      | nil => rw [ht', List.nil_append] at ht; rw [ht]; exact List.suffix_refl _
      | cons c cs =>
        rcases hx with rfl | ⟨y, rfl⟩
        · have := congrArg List.length hu; simp [ht'] at this
        · exfalso
          have hm : '/' ∈ t := by
            have h2 : (u ++ t).getLast? = some '/' := by rw [hu]; simp
            rw [List.getLast?_append, ht'] at h2
            have h3 : (c :: cs).getLast? = some '/' := by
              rw [List.getLast?_eq_some_getLast (by simp)] at h2 ⊢
              exact h2
            rw [ht']
            exact List.mem_of_getLast? h3
          have h4 : '/' ∈ c! ".rs" := by rw [← ht]; exact List.mem_append_left _ hm
          exact absurd h4 (by decide)

/-! ## Names -/

theorem mem_splitDot {s t : Str} (h : t ∈ splitDot s) {c : Char} (hc : c ∈ t) : c ∈ s := by
  have key : ∀ (l : List Str), t ∈ l → c ∈ joinDot l := by
    intro l
    induction l with
    | nil => intro h; cases h
    | cons a l ih =>
      intro h
      cases l with
      | nil =>
        cases List.mem_singleton.mp h
        exact hc
      | cons b l =>
        rw [joinDot_cons _ (by simp)]
        rcases List.mem_cons.mp h with rfl | h
        · exact List.mem_append_left _ hc
        · exact List.mem_append_right _ (List.mem_cons_of_mem _ (ih h))
  have := key _ h
  rwa [joinDot_splitDot] at this

theorem mem_joinDot {l : List Str} {c : Char} (h : c ∈ joinDot l) : c = '.' ∨ ∃ t ∈ l, c ∈ t := by
  induction l with
  | nil => cases h
  | cons a l ih =>
    cases l with
    | nil => exact Or.inr ⟨a, by simp, h⟩
    | cons b l =>
      rw [joinDot_cons _ (by simp)] at h
      rcases List.mem_append.mp h with h | h
      · exact Or.inr ⟨a, by simp, h⟩
      · rcases List.mem_cons.mp h with h | h
        · exact Or.inl h
        · rcases ih h with h | ⟨t, h1, h2⟩
          · exact Or.inl h
          · exact Or.inr ⟨t, List.mem_cons_of_mem _ h1, h2⟩

theorem mem_sanitize {s : Str} {c : Char} (h : c ∈ sanitizeKeyword s) : c ∈ s ∨ c ∈ c! "._pb" := by
  rw [sanitizeKeyword_eq] at h
  rcases mem_joinDot h with rfl | ⟨t, h1, h2⟩
  · exact Or.inr (by decide)
  · obtain ⟨u, hu, rfl⟩ := List.mem_map.mp h1
    unfold sanitizeSegment at h2
    split at h2
    · rcases List.mem_append.mp h2 with h2 | h2
      · exact Or.inl (mem_splitDot hu h2)
      · refine Or.inr ?_
        have h3 : "_pb".toList = c! "_pb" := by decide
        rw [h3] at h2
        exact List.mem_cons_of_mem _ h2
    · exact Or.inl (mem_splitDot hu h2)

theorem pb_chars : ∀ c ∈ c! "._pb", c ≠ '/' ∧ c ≠ '\n' := by decide
theorem rs_chars : ∀ c ∈ c! ".rs", c ≠ '/' ∧ c ≠ '\n' := by decide

theorem stem_chars {p : Str} {c : Char} (h : c ∈ getFileStem p) : c ≠ '/' ∧ c ≠ '\n' := by
  unfold getFileStem at h
  rcases mem_sanitize h with h | h
  · obtain ⟨x, _, rfl⟩ := List.mem_map.mp h
    split
    · rename_i hx
      refine ⟨fun e => ?_, fun e => ?_⟩ <;> rw [e] at hx <;> exact absurd hx (by decide)
    · decide
  · exact pb_chars c h

theorem mem_rsplit {s a b : Str} (h : rsplitDot s = some (a, b)) {c : Char} (hc : c ∈ a ∨ c ∈ b) : c ∈ s := by
  rw [(rsplitDot_some h).1]
  rcases hc with hc | hc
  · exact List.mem_append_left _ hc
  · exact List.mem_append_right _ (List.mem_cons_of_mem _ hc)

theorem mem_splitPackage {s : Str} {c : Char} (hc : c ∈ (splitPackage s).1 ∨ c ∈ (splitPackage s).2) : c ∈ s := by
  unfold splitPackage at hc
  split at hc
  · rcases hc with hc | hc <;> cases hc
  · split at hc
    · exact mem_rsplit ‹_› hc
    · rcases hc with hc | hc
      · cases hc
      · exact hc

/-- The characters that packages are made of. -/
def PackageText (s : Str) : Prop := ∀ c ∈ s, IdentChar c ∨ c = '.'

theorem package_char {c : Char} (h : IdentChar c ∨ c = '.') : c ≠ '/' ∧ c ≠ '\n' := by
  refine ⟨fun e => ?_, fun e => ?_⟩ <;> rw [e] at h <;> revert h <;> unfold IdentChar <;> decide

theorem outName_chars {package out : Str} (h : PackageText package) {c : Char} (hc : c ∈ outName package out) : c ≠ '/' ∧ c ≠ '\n' := by
  unfold outName at hc
  rcases List.mem_append.mp hc with hc | hc
  · split at hc
    · exact stem_chars hc
    · rcases mem_sanitize hc with hc | hc
      · exact package_char (h c (mem_splitPackage (Or.inr hc)))
      · exact pb_chars c hc
  · exact rs_chars c hc

theorem sanitize_ne_mod (s : Str) : sanitizeKeyword s ≠ c! "mod" := by
  intro h
  have := C47_not_listed_partial s
  rw [h] at this
  exact this (c! "mod") (by decide) (by decide)

theorem outName_ne_mod (package out : Str) : outName package out ≠ c! "mod.rs" := by
  intro h
  unfold outName at h
  have : c! "mod.rs" = c! "mod" ++ c! ".rs" := rfl
  rw [this] at h
  have h := List.append_cancel_right h
  split at h
  · exact sanitize_ne_mod _ h
  · exact sanitize_ne_mod _ h

theorem out_not_mod {package out : Str} (h : PackageText package) (dir : Str) : ¬ IsModRs (joinPath dir (outName package out)) := by
  rw [isMod_name, splitSlash_join _ fun hc => (outName_chars h hc).1 rfl]
  exact outName_ne_mod _ _

theorem out_rs {package out : Str} (h : PackageText package) (dir : Str) : IsRs (joinPath dir (outName package out)) := by
  obtain ⟨x, _, e⟩ := joinPath_split dir (b := outName package out) (relative fun hc => (outName_chars h hc).1 rfl)
  rw [e]
  exact ⟨x ++ _, by unfold outName; rw [List.append_assoc]⟩

/-! ## The package of a compiled file -/

theorem compile_package {path : FileDescriptor → FieldType → Str} {cfg : Config} {D D' : FileDescriptor}
    (h : D.compile path cfg = .ok D') : D'.package = D.package := by
  obtain ⟨D1, D2, D3, D4, S⟩ := compile_stages h
  have hI := C52_positions S.resolve
  have h1 : D1.package = D.package := by
    obtain ⟨_, _, _, h, _⟩ := C52_resolves S.resolve
    have := congrArg FileDescriptor.package h
    exact this
  obtain ⟨_, _, h2, _⟩ := breakCycles_ok hI S.cycles
  have h2 := congrArg FileDescriptor.package h2.others
  have h3 : D3.package = D2.package := by
    rw [S.convert]
    split <;> rfl
  have h4 : D4.package = D3.package := by
    have := S.defaults
    unfold FileDescriptor.setDefaults at this
    simp only at this
    split at this
    · cases this
    · cases this; rfl
  rw [S.names]
  exact h4.trans (h3.trans (h2.trans h1))

theorem fetch_package {fs : Files} {search : List Str} {read : Str → Except ReadError FileDescriptor} {file : Str} (imps : List Str) :
    ∀ {D D' : FileDescriptor}, fetchImports fs search read file imps D = .ok D' → D'.package = D.package := by
  induction imps with
  | nil => intro D D' h; cases h; rfl
  | cons i imps ih =>
    intro D D' h
    rw [fetchImports] at h
    split at h
    · cases h
    · split at h
      · cases h
      · exact (ih h).trans rfl

theorem read_package {fs : Files} {search : List Str} {n : Nat} {file : Str} {D : FileDescriptor}
    (h : readProtoFile fs search n file = .ok D) : PackageText D.package := by
  cases n with
  | zero => cases h
  | succ n =>
    rw [readProtoFile] at h
    split at h
    · cases h
    · split at h
      · cases h
      · rename_i E imports hp
        rw [PackageText, fetch_package _ h]
        unfold parseFile at hp
        split at hp
        · cases hp
        · cases hp
        · rename_i F r hF
          simp only [Except.ok.injEq, Prod.mk.injEq] at hp
          obtain ⟨rfl, rfl⟩ := hp
          exact readProto_package hF

theorem compiled_package {n : Nat} {j : Job} {d : Disk} {D : FileDescriptor} (h : j.compiled n d = some D) : PackageText D.package := by
  unfold Job.compiled compileFile at h
  split at h
  · rename_i D0 h0
    split at h0
    · cases h0
    · rename_i E hE
      split at h0
      · cases h0
      · rename_i E' hE'
        cases h0
        cases h
        unfold FileDescriptor.printed
        split
        · intro c hc; cases hc
        · intro c hc
          rw [compile_package hE'] at hc
          exact read_package hE c hc
  · cases h

/-! ## What changes -/

namespace OnlyWrites

theorem refl (o : Str → Prop) (d : Disk) : OnlyWrites o d d :=
  ⟨fun _ h => h, fun _ _ _ => rfl, fun _ t _ h => ⟨[], by rw [h, List.append_nil]⟩⟩

theorem trans {o : Str → Prop} {d d' d'' : Disk} (h : OnlyWrites o d d') (h' : OnlyWrites o d' d'') : OnlyWrites o d d'' := by
  refine ⟨fun p hp => h'.dirs p (h.dirs p hp), fun p h1 h2 => (h'.others p h1 h2).trans (h.others p h1 h2), fun p t h1 h2 => ?_⟩
  obtain ⟨a, ha⟩ := h.mods p t h1 h2
  obtain ⟨b, hb⟩ := h'.mods p _ h1 ha
  exact ⟨a ++ b, by rw [hb, List.append_assoc]⟩

theorem mono {o o' : Str → Prop} {d d' : Disk} (h : OnlyWrites o d d') (ho : ∀ p, o p → o' p) : OnlyWrites o' d d' :=
  ⟨h.dirs, fun p h1 h2 => h.others p (fun x => h1 (ho p x)) h2, fun p t h1 h2 => h.mods p t (fun x => h1 (ho p x)) h2⟩

theorem put (d : Disk) (p t : Str) : OnlyWrites (· = p) d (d.put p t) := by
  refine ⟨fun _ h => h, fun q h1 _ => ?_, fun q t h1 h2 => ⟨[], ?_⟩⟩
  · show (if q = p then _ else _) = _
    rw [if_neg h1]
  · show (if q = p then _ else _) = _
    rw [if_neg h1, h2, List.append_nil]

theorem mkdirs (o : Str → Prop) (d : Disk) (p : Str) : OnlyWrites o d (d.mkdirs p) := by
  refine ⟨fun q h => ?_, fun _ _ _ => rfl, fun _ t _ h => ⟨[], by rw [List.append_nil]; exact h⟩⟩
  show (d.dir q || q == p || _) = true
  rw [h]
  rfl

theorem updateMod {o : Str → Prop} {d d' : Disk} {p : Str} (h : d.updateMod p = some d') : OnlyWrites o d d' := by
  unfold Disk.updateMod at h
  split at h
  · rename_i t ht
    cases h
    refine ⟨fun _ h => h, fun q _ h2 => ?_, fun q t' _ h2 => ?_⟩
    · show (if q = _ then _ else _) = _
      rw [if_neg fun e => h2 (by rw [e]; exact isMod_modPath p)]
    · show ∃ a, (if q = _ then _ else _) = _
      by_cases hq : q = modPath p
      · rw [if_pos hq]
        subst hq
        rcases C59_append_only _ _ _ ht with ⟨h1, _⟩ | ⟨x, h1, h3⟩
        · rw [h1] at h2; cases h2
        · rw [h1] at h2
          cases h2
          rcases h3 with h3 | h3
          · exact ⟨[], by rw [List.append_nil, h3]⟩
          · exact ⟨_, by rw [h3, List.append_assoc, List.append_assoc]⟩
      · rw [if_neg hq]
        exact ⟨[], by rw [h2, List.append_nil]⟩
  · cases h

theorem enterDirs {o : Str → Prop} {ps : List Str} : ∀ {d d' : Disk} {out : Str} {r : Except RunError Str},
    Pbrs.enterDirs d out ps = (r, d') → OnlyWrites o d d' := by
  induction ps with
  | nil => intro d d' out r h; cases h; exact refl _ _
  | cons p ps ih =>
    intro d d' out r h
    rw [Pbrs.enterDirs] at h
    split at h
    · exact ih h
    · split at h
      · cases h; exact mkdirs _ _ _
      · rename_i e he
        exact (mkdirs _ _ _).trans ((updateMod he).trans (ih h))

end OnlyWrites

theorem enterDirs_ok {ps : List Str} : ∀ {d d' : Disk} {out dir : Str}, enterDirs d out ps = (.ok dir, d') → dir = ps.foldl joinPath out := by
  induction ps with
  | nil => intro d d' out dir h; cases h; rfl
  | cons p ps ih =>
    intro d d' out dir h
    rw [enterDirs] at h
    split at h
    · exact ih h
    · split at h
      · cases h
      · exact ih h

/-- All that `write_proto` does. -/
theorem writeProto_spec {junk : Str} {n : Nat} {j : Job} {d d' : Disk} {r : Except RunError Unit} (h : writeProto junk n j d = (r, d')) :
    (j.compiled n d = none ∧ (∃ e, r = .error (.pbrs e)) ∧ d' = d) ∨
    ∃ D, j.compiled n d = some D ∧ ∃ d1,
      OnlyWrites (fun _ => False) d d1 ∧
      ((∃ e, r = .error e ∧ d' = d1) ∨
       (enterDirs d (parentPath j.outFile) (packageDirs D.package) = (.ok ((packageDirs D.package).foldl joinPath (parentPath j.outFile)), d1) ∧
        ((j.noOutput = true ∧ r = .ok () ∧ d' = d1) ∨
         (j.noOutput = false ∧
          ((∃ e, r = .error (.emit e) ∧ j.text n d = none ∧ d' = d1.put (outPath D.package j.outFile) junk) ∨
          ∃ t, j.text n d = some t ∧
            ((r = .error .panic ∧ (d1.put (outPath D.package j.outFile) t).updateMod (outPath D.package j.outFile) = none ∧
                d' = d1.put (outPath D.package j.outFile) t) ∨
             (r = .ok () ∧ (d1.put (outPath D.package j.outFile) t).updateMod (outPath D.package j.outFile) = some d' ∧
                (d1.isDir (outPath D.package j.outFile) || !d1.isDir (parentPath (outPath D.package j.outFile))) = false))))))) := by
  unfold writeProto at h
  split at h
  · rename_i e he
    cases h
    exact Or.inl ⟨by unfold Job.compiled; rw [he], ⟨e, rfl⟩, rfl⟩
  · rename_i D hD
    refine Or.inr ⟨D.printed j.cfg, by unfold Job.compiled; rw [hD], ?_⟩
    simp only at h
    split at h
    · rename_i e d1 h1
      cases h
      exact ⟨_, .enterDirs h1, Or.inl ⟨e, rfl, rfl⟩⟩
    · rename_i dir d1 h1
      have hdir := enterDirs_ok h1
      refine ⟨d1, .enterDirs h1, ?_⟩
      subst hdir
      change (if j.noOutput = true then _ else _) = _ at h
      split at h
      · rename_i hn
        cases h
        exact Or.inr ⟨h1, Or.inl ⟨hn, rfl, rfl⟩⟩
      · rename_i hn
        split at h
        · cases h
          exact Or.inl ⟨_, rfl, rfl⟩
        · rename_i hio
          refine Or.inr ⟨h1, Or.inr ⟨by simpa using hn, ?_⟩⟩
          split at h
          · rename_i e he
            cases h
            refine Or.inl ⟨e, rfl, ?_, rfl⟩
            simp only [Job.text, Job.compiled, hD, Option.bind_some, he]
          · rename_i t ht
            refine Or.inr ⟨t.str, by simp only [Job.text, Job.compiled, hD, Option.bind_some, ht], ?_⟩
            split at h
            · rename_i hu
              cases h
              exact Or.inl ⟨rfl, hu, rfl⟩
            · rename_i d2 hu
              cases h
              exact Or.inr ⟨rfl, hu, by simpa [outPath] using hio⟩

/-! ## Rust files do not matter when a schema is read -/

/-- The disks have the same files, except for Rust source files. -/
def SameSources (d d' : Disk) : Prop := ∀ p, ¬ IsRs p → d'.file p = d.file p

theorem SameSources.trans {d d' d'' : Disk} (h : SameSources d d') (h' : SameSources d' d'') : SameSources d d'' :=
  fun p hp => (h' p hp).trans (h p hp)

theorem OnlyWrites.same {o : Str → Prop} {d d' : Disk} (h : OnlyWrites o d d') (ho : ∀ p, o p → IsRs p) : SameSources d d' :=
  fun p hp => h.others p (fun x => hp (ho p x)) fun x => hp (isMod_rs x)

theorem NoRsImports.same {d d' : Disk} (h : SameSources d d') (hd : NoRsImports d) : NoRsImports d' :=
  fun p text F r hp ht => hd p text F r hp (by rw [← h p hp]; exact ht)

theorem normDir_split (d : Str) : normDir d = [] ∨ ∃ y, normDir d = y ++ ['/'] := by
  unfold normDir
  rcases List.eq_nil_or_concat ((splitSlashes d).filter fun c => c ≠ [] ∧ c ≠ ['.']) with h | ⟨l, x, h⟩
  · rw [h]
    split
    · exact .inr ⟨[], rfl⟩
    · exact .inl rfl
  · rw [h]
    exact .inr ⟨(if isAbsolute d = true then ['/'] else []) ++ (l.flatMap (· ++ ['/']) ++ x), by simp⟩

/-- A path is its directory and its last component. -/
theorem splitSlash_eq (p : Str) : p = (splitSlash p).1 ++ (splitSlash p).2 := by
  unfold splitSlash
  simp only
  rw [← List.reverse_append, List.takeWhile_append_dropWhile, List.reverse_reverse]

theorem rs_of_name {x b : Str} (hx : x = [] ∨ ∃ y, x = y ++ ['/']) (h : IsRs (x ++ b)) : IsRs b := by
  rcases hx with rfl | ⟨y, rfl⟩
  · exact h
  · by_cases hb : isAbsolute b = true
    · unfold IsRs at h ⊢
      rcases List.suffix_or_suffix_of_suffix h (List.suffix_append (y ++ ['/']) b) with h1 | h1
      · exact h1
      · obtain ⟨t, ht⟩ := h1
        cases b with
        | nil => cases hb
        | cons c cs =>
          have hc : c = '/' := by simpa [isAbsolute] using hb
          subst hc
          have : '/' ∈ c! ".rs" := by rw [← ht]; simp
          exact absurd this (by decide)
    · refine rs_join (a := y ++ ['/']) ?_
      unfold joinPath
      have hb : isAbsolute b = false := by simpa using hb
      rw [hb]
      simpa using h

theorem normPath_rs {p : Str} (h : IsRs (normPath p)) : IsRs p := by
  have := rs_of_name (normDir_split _) h
  rw [splitSlash_eq p]
  exact List.IsSuffix.trans this (List.suffix_append _ _)

theorem candidate_rs {file imp dir : Str} (h : IsRs (candidate file imp dir)) : IsRs imp := by
  have h := normPath_rs h
  split at h <;> exact rs_join h

theorem find_same {d d' : Disk} (h : SameSources d d') {search : List Str} {file imp : Str} (hi : ¬ IsRs imp) :
    findImport d'.file search file imp = findImport d.file search file imp := by
  unfold findImport
  induction search with
  | nil => rfl
  | cons dir search ih =>
    simp only [List.map_cons, List.find?_cons]
    rw [h _ fun x => hi (candidate_rs x), ih]

theorem findImport_mem {fs : Files} {search : List Str} {file imp q : Str} (h : findImport fs search file imp = some q) :
    ∃ dir, q = candidate file imp dir := by
  have := List.mem_of_find?_eq_some h
  obtain ⟨dir, _, rfl⟩ := List.mem_map.mp this
  exact ⟨dir, rfl⟩

theorem fetch_same {d d' : Disk} (h : SameSources d d') {search : List Str} {read read' : Str → Except ReadError FileDescriptor}
    (hr : ∀ p, ¬ IsRs p → read' p = read p) {file : Str} (imps : List Str) (hi : ∀ i ∈ imps, ¬ IsRs i) :
    ∀ D, fetchImports d'.file search read' file imps D = fetchImports d.file search read file imps D := by
  induction imps with
  | nil => intro D; rfl
  | cons i imps ih =>
    intro D
    have hi0 := hi i (by simp)
    rw [fetchImports, fetchImports, find_same h hi0]
    cases hf : findImport d.file search file i with
    | none => rfl
    | some q =>
      simp only
      obtain ⟨dir, rfl⟩ := findImport_mem hf
      rw [hr _ fun x => hi0 (candidate_rs x)]
      split
      · rfl
      · exact ih (fun x hx => hi x (List.mem_cons_of_mem _ hx)) _

theorem read_same {d d' : Disk} (h : SameSources d d') (hd : NoRsImports d) {search : List Str} (n : Nat) :
    ∀ p, ¬ IsRs p → readProtoFile d'.file search n p = readProtoFile d.file search n p := by
  induction n with
  | zero => intro p _; rfl
  | succ n ih =>
    intro p hp
    rw [readProtoFile, readProtoFile, h p hp]
    cases ht : d.file p with
    | none => rfl
    | some text =>
      simp only
      cases hq : parseFile p text with
      | error e => rfl
      | ok x =>
        obtain ⟨D, imps⟩ := x
        simp only
        refine fetch_same h ih imps ?_ D
        unfold parseFile at hq
        split at hq
        · cases hq
        · cases hq
        · rename_i F r hF
          simp only [Except.ok.injEq, Prod.mk.injEq] at hq
          obtain ⟨_, rfl⟩ := hq
          exact hd p text F r hp ht hF

theorem compiled_same {d d' : Disk} (h : SameSources d d') (hd : NoRsImports d) {n : Nat} {j : Job} (hj : ¬ IsRs j.inFile) :
    j.compiled n d' = j.compiled n d := by
  unfold Job.compiled compileFile
  rw [read_same h hd n _ hj]

theorem text_same {d d' : Disk} (h : SameSources d d') (hd : NoRsImports d) {n : Nat} {j : Job} (hj : ¬ IsRs j.inFile) :
    j.text n d' = j.text n d := by
  unfold Job.text
  rw [compiled_same h hd hj, h _ hj]

theorem out_same {d d' : Disk} (h : SameSources d d') (hd : NoRsImports d) {n : Nat} {j : Job} (hj : ¬ IsRs j.inFile) :
    j.out n d' = j.out n d := by
  unfold Job.out
  rw [compiled_same h hd hj]

/-! ## Directories -/

/-- All directories of a package are there. -/
def AllExist (d : Disk) : Str → List Str → Prop
  | _, [] => True
  | out, p :: ps => d.exists_ (joinPath out p) = true ∧ AllExist d (joinPath out p) ps

theorem exists_mono {o : Str → Prop} {d d' : Disk} (h : OnlyWrites o d d') {p : Str} (hp : d.exists_ p = true) (ho : ¬ o p) :
    d'.exists_ p = true := by
  unfold Disk.exists_ Disk.isDir at hp ⊢
  simp only [Bool.or_eq_true] at hp ⊢
  rcases hp with hp | hp | hp
  · obtain ⟨t, ht⟩ := Option.isSome_iff_exists.mp hp
    obtain ⟨a, ha⟩ := h.mods p t ho ht
    exact Or.inl (by rw [ha]; rfl)
  · exact Or.inr (Or.inl hp)
  · exact Or.inr (Or.inr (h.dirs p hp))

theorem enterDirs_exist {ps : List Str} : ∀ {d d' : Disk} {out dir : Str}, enterDirs d out ps = (.ok dir, d') → AllExist d' out ps := by
  induction ps with
  | nil => intro d d' out dir _; trivial
  | cons p ps ih =>
    intro d d' out dir h
    rw [enterDirs] at h
    split at h
    · rename_i he
      exact ⟨exists_mono (o := fun _ => False) (.enterDirs h) he id, ih h⟩
    · split at h
      · cases h
      · rename_i e hu
        refine ⟨exists_mono (o := fun _ => False) (.enterDirs h) (exists_mono (o := fun _ => False) (.updateMod hu) ?_ id) id, ih h⟩
        unfold Disk.exists_ Disk.isDir Disk.mkdirs
        simp

theorem enterDirs_stay {ps : List Str} : ∀ {d : Disk} {out : Str}, AllExist d out ps →
    enterDirs d out ps = (.ok (ps.foldl joinPath out), d) := by
  induction ps with
  | nil => intro d out _; rfl
  | cons p ps ih =>
    intro d out h
    rw [enterDirs]
    rw [if_pos h.1]
    exact ih h.2

theorem AllExist.mono {d d' : Disk} (hm : ∀ p, d.exists_ p = true → d'.exists_ p = true) {ps : List Str} : ∀ {out : Str},
    AllExist d out ps → AllExist d' out ps := by
  induction ps with
  | nil => intro _ _; trivial
  | cons p ps ih => exact fun h => ⟨hm _ h.1, ih h.2⟩

/-- What happens when all directories are there. -/
theorem writeProto_replay {junk : Str} {n : Nat} {j : Job} {d d' : Disk} {D : FileDescriptor} {t : Str} (hD : j.compiled n d = some D)
    (ht : j.text n d = some t) (hn : j.noOutput = false) (hx : AllExist d (parentPath j.outFile) (packageDirs D.package))
    (hio : (d.isDir (outPath D.package j.outFile) || !d.isDir (parentPath (outPath D.package j.outFile))) = false)
    (hu : (d.put (outPath D.package j.outFile) t).updateMod (outPath D.package j.outFile) = some d') :
    writeProto junk n j d = (.ok (), d') := by
  unfold Job.text at ht
  rw [hD] at ht
  unfold Job.compiled at hD
  unfold writeProto
  split at hD
  · rename_i D0 h0
    cases hD
    rw [h0]
    simp only [Option.bind_some] at ht
    simp only [enterDirs_stay hx, hn, Bool.false_eq_true, if_false]
    change (if (d.isDir (outPath (D0.printed j.cfg).package j.outFile) || !d.isDir (parentPath (outPath (D0.printed j.cfg).package j.outFile))) = true then _ else _) = _
    rw [hio]
    simp only [Bool.false_eq_true, if_false]
    split at ht
    · rename_i x hw
      cases ht
      simp only [hw]
      change (match (d.put (outPath (D0.printed j.cfg).package j.outFile) x.str).updateMod (outPath (D0.printed j.cfg).package j.outFile) with
        | none => _ | some d => _) = _
      rw [hu]
    · cases ht
  · cases hD

/-- What happens when printing fails. -/
theorem writeProto_fail {junk : Str} {n : Nat} {j : Job} {d : Disk} {D : FileDescriptor} (hD : j.compiled n d = some D)
    (ht : j.text n d = none) (hn : j.noOutput = false) (hx : AllExist d (parentPath j.outFile) (packageDirs D.package))
    (hio : (d.isDir (outPath D.package j.outFile) || !d.isDir (parentPath (outPath D.package j.outFile))) = false) :
    ∃ e, writeProto junk n j d = (.error (.emit e), d.put (outPath D.package j.outFile) junk) := by
  unfold Job.text at ht
  rw [hD] at ht
  unfold Job.compiled at hD
  unfold writeProto
  split at hD
  · rename_i D0 h0
    cases hD
    rw [h0]
    simp only [Option.bind_some] at ht
    simp only [enterDirs_stay hx, hn, Bool.false_eq_true, if_false]
    change ∃ e, (if (d.isDir (outPath (D0.printed j.cfg).package j.outFile) || !d.isDir (parentPath (outPath (D0.printed j.cfg).package j.outFile))) = true then _ else _) = _
    rw [hio]
    simp only [Bool.false_eq_true, if_false]
    split at ht
    · cases ht
    · rename_i e hw
      simp only [hw]
      exact ⟨e, rfl⟩
  · cases hD

end QP.Pbrs
