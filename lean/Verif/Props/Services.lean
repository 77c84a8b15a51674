import Verif.Proofs.Services
import Verif.Props.Run
import Verif.Props.Parser
import Mathlib.Data.List.Forall2
/-!
# C113: the service generator and the included lines of a `Config`
-/

set_option linter.unusedVariables false

namespace QP.Pbrs
open Parse Grammar

variable {σ : Type}

/-! ## Without hooks -/

/-- The result of a run without hooks as that of a run with hooks. -/
def noHook : Except RunError Unit → Except HookError Unit
  | .ok () => .ok ()
  | .error e => .error (.run e)

/-- With the `Config` that `ConfigBuilder::build` makes, services only cost an empty line each: the run does what `writeProto` does (so that
all that is proved about runs elsewhere is about runs with such a `Config`). -/
theorem C113_default (junk : Str) (n : Nat) (j : Job) (d : Disk) (s : σ) :
    writeProtoWith (Hooks.default σ) junk n j d s = (noHook (writeProto junk n j d).1, (writeProto junk n j d).2, s) := by
  unfold writeProtoWith writeProto
  cases compileFile d.file j.search (typePath j.cfg) j.cfg n j.inFile with
  | error e => rfl
  | ok D =>
    dsimp only
    rcases enterDirs d (parentPath j.outFile) (packageDirs (D.printed j.cfg).package) with ⟨r, d1⟩
    cases r with
    | error e => rfl
    | ok dir =>
      dsimp only
      by_cases hn : j.noOutput = true
      · simp only [if_pos hn]; rfl
      · simp only [if_neg hn]
        split
        · rfl
        · rw [servicesOf_length]
          rcases writeBefore_spec (D.printed j.cfg) j.cfg (splitSlash j.inFile).2 (servicesIn ((d.file j.inFile).getD [])).length
            (Hooks.default σ).includes with ⟨e, h1, h2⟩ | ⟨t, t0, a, b, lines, h1, h2, h3, h4, h5⟩
          · rw [h1, h2]; rfl
          · have hl : lines = [] := by
              rcases h5 with ⟨h5, _⟩ | ⟨h5, _⟩
              · rw [h5]; rfl
              · exact h5
            rw [h1, h2, writeServices_default]
            dsimp only
            have e : t.str ++ List.replicate (servicesIn ((d.file j.inFile).getD [])).length '\n' ++ ['\n'] = t0.str := by
              rw [h3, h4, hl, List.append_nil]
            rw [e]
            cases (d1.put _ t0.str).updateMod _ <;> rfl

/-- The same for several files. -/
theorem C113_default_run (junk : Str) (n : Nat) (js : List Job) : ∀ (d : Disk) (s : σ),
    runWith junk n (js.map fun j => (j, Hooks.default σ)) d s = (noHook (run junk n js d).1, (run junk n js d).2, s) := by
  induction js with
  | nil => intro d s; rfl
  | cons j js ih =>
    intro d s
    rw [List.map_cons, runWith, run, C113_default]
    rcases writeProto junk n j d with ⟨r, d1⟩
    cases r with
    | error e => rfl
    | ok => exact ih d1 s

/-! ## The services -/

theorem servicesIn_ok {text : Str} {F : File} {rest : Str} (h : readProto text = .ok F rest) : servicesIn text = F.services := by
  unfold servicesIn
  rw [h]

theorem compiled_read {n : Nat} {j : Job} {d : Disk} {D : FileDescriptor} (h : j.compiled n d = some D) :
    ∃ t F rest, d.file j.inFile = some t ∧ readProto t = .ok F rest := by
  unfold Job.compiled compileFile at h
  cases n with
  | zero => rw [show readProtoFile d.file j.search 0 j.inFile = _ from rfl] at h; cases h
  | succ n =>
    cases hr : readProtoFile d.file j.search (n + 1) j.inFile with
    | error e => rw [hr] at h; cases h
    | ok E =>
      unfold readProtoFile at hr
      cases ht : d.file j.inFile with
      | none => rw [ht] at hr; cases hr
      | some t =>
        rw [ht] at hr
        dsimp only at hr
        cases hp : readProto t with
        | ok F rest => exact ⟨t, F, rest, rfl, hp⟩
        | err => unfold parseFile at hr; rw [hp] at hr; cases hr
        | panic => unfold parseFile at hr; rw [hp] at hr; cases hr

/-- A run that succeeds (and is to write a file) has called the generator for every service of the input file, once each, in their order in
the file and with the names that are written there, and for nothing else (not for services of imported files). The texts it wrote are at the
end of the generated file, each after an empty line and in the same order; the rest of the file is the same as without a generator. The lines
to include stand after the `use` lines, unless all messages are empty. -/
theorem C113_written_partial {H : Hooks σ} {junk : Str} {n : Nat} {j : Job} {d d' : Disk} {s s' : σ} (hn : j.noOutput = false)
    (h : writeProtoWith H junk n j d s = (.ok (), d', s')) :
    ∃ D p t F rest texts a lines b, j.compiled n d = some D ∧ j.out n d = some p ∧ d.file j.inFile = some t ∧ readProto t = .ok F rest ∧
      Calls H.rpc F.services s texts s' ∧
      d'.file p = some (a ++ lines ++ b ++ (texts.map fun t => '\n' :: t).flatten ++ ['\n']) ∧
      j.text n d = some (a ++ b ++ List.replicate F.services.length '\n' ++ ['\n']) ∧
      ((lines = (H.includes.map fun i => i ++ ['\n']).flatten ∧ ∃ a', a = a' ++ c! "use quick_protobuf::sizeofs::*;\n") ∨
        lines = [] ∧ ∀ m ∈ D.messages, Hollow m) := by
  rcases writeProtoWith_spec h with ⟨_, ⟨_, h1⟩, _⟩ | ⟨D, hD, d1, h1, h2⟩
  · cases h1
  · have hout : j.out n d = some (outPath D.package j.outFile) := by unfold Job.out; rw [hD]; rfl
    obtain ⟨t, F, rest, ht, hF⟩ := compiled_read hD
    rcases h2 with ⟨_, h2, _⟩ | ⟨_, ⟨hn', _⟩ | ⟨_, ⟨_, h2, _⟩ | ⟨t1, ht1, ⟨h2, _⟩ | ⟨ts, hs, ⟨h2, _⟩ | ⟨_, hu⟩⟩⟩⟩⟩
    · cases h2
    · rw [hn] at hn'; cases hn'
    · cases h2
    · cases h2
    · cases h2
    · rw [ht, Option.getD_some, servicesIn_ok hF] at hs
      obtain ⟨texts, hc, rfl⟩ := writeServices_some hs
      rcases writeBefore_spec D j.cfg (splitSlash j.inFile).2 F.services.length H.includes with ⟨e, h3, _⟩ | ⟨t', t0, a, b, lines, h3, h4, h5, h6, h7⟩
      · rw [h3] at ht1; cases ht1
      · rw [h3] at ht1
        cases ht1
        refine ⟨D, _, t, F, rest, texts, a, lines, b, hD, hout, ht, hF, hc, ?_, ?_, ?_⟩
        · have hm : outPath D.package j.outFile ≠ modPath (outPath D.package j.outFile) := fun e =>
            (C71_out hout).2 (by rw [e]; exact isMod_modPath _)
          unfold Disk.updateMod at hu
          split at hu
          · cases hu
            show (if _ = _ then _ else _) = _
            rw [if_neg hm, ← h5]
            show (if _ = _ then _ else _) = _
            rw [if_pos rfl]
          · cases hu
        · unfold Job.text
          rw [hD, Option.bind_some, ht, Option.getD_some, servicesOf_length, servicesIn_ok hF, h4]
          exact congrArg some h6
        · rcases h7 with h7 | ⟨h7, h8⟩
          · exact Or.inl h7
          · refine Or.inr ⟨h7, fun m hm => ?_⟩
            exact hollow_of m (List.all_eq_true.mp h8 m hm)

/-- The same for a file in the language of `Spec/Grammar.lean`: its services are those that were written in it. -/
theorem C113_file_partial {H : Hooks σ} {junk : Str} {n : Nat} {j : Job} {d d' : Disk} {s s' : σ} {F : File} {t : Str} (hn : j.noOutput = false)
    (ht : d.file j.inFile = some t) (hF : FileText F t) (h : writeProtoWith H junk n j d s = (.ok (), d', s')) :
    ∃ texts, Calls H.rpc F.services s texts s' := by
  obtain ⟨D, p, t', F', rest, texts, a, lines, b, _, _, h3, h4, h5, _⟩ := C113_written_partial hn h
  rw [ht] at h3
  cases h3
  rw [(C54_parse hF).2] at h4
  cases h4
  exact ⟨texts, h5⟩

/-- What a failing run has called: nothing, if it failed for another reason than the generator (all services, if only `mod.rs` could not be
updated). If it failed because of the generator, then this was called for the services up to the one it failed for, and no further; the
generated file is incomplete and is not added to `mod.rs`: apart from it and the directories of the package everything is as before. -/
theorem C113_failed {H : Hooks σ} {junk : Str} {n : Nat} {j : Job} {d d' : Disk} {s s' : σ} {e : HookError}
    (h : writeProtoWith H junk n j d s = (.error e, d', s')) :
    ((∃ e', e = .run e') ∧ s' = s) ∨
    ∃ D p t F rest, j.compiled n d = some D ∧ j.out n d = some p ∧ d.file j.inFile = some t ∧ readProto t = .ok F rest ∧
      ((∃ texts, e = .run .panic ∧ Calls H.rpc F.services s texts s') ∨
       (e = .rpc ∧ d'.file p = some junk ∧ ('.' ∉ D.package → ∀ q, q ≠ p → d'.file q = d.file q) ∧
        ∃ before r after texts s1, F.services = before ++ r :: after ∧ Calls H.rpc before s texts s1 ∧ H.rpc r s1 = (none, s'))) := by
  rcases writeProtoWith_spec h with ⟨_, ⟨e', h1⟩, _, h2⟩ | ⟨D, hD, d1, h1, h2⟩
  · cases h1
    exact Or.inl ⟨⟨_, rfl⟩, h2⟩
  · have hout : j.out n d = some (outPath D.package j.outFile) := by unfold Job.out; rw [hD]; rfl
    obtain ⟨t, F, rest, ht, hF⟩ := compiled_read hD
    rcases h2 with ⟨_, h2, _, h3⟩ | ⟨he, ⟨_, h2, _⟩ | ⟨_, ⟨_, h2, _, _, h3⟩ | ⟨t1, ht1, ⟨h2, hs, hd⟩ | ⟨ts, hs, ⟨h2, _⟩ | ⟨h2, hu⟩⟩⟩⟩⟩
    · cases h2
      exact Or.inl ⟨⟨_, rfl⟩, h3⟩
    · cases h2
    · cases h2
      exact Or.inl ⟨⟨_, rfl⟩, h3⟩
    · cases h2
      refine Or.inr ⟨D, _, t, F, rest, hD, hout, ht, hF, Or.inr ⟨rfl, ?_, fun hp q hq => ?_, ?_⟩⟩
      · rw [hd]
        show (if _ = _ then _ else _) = _
        rw [if_pos rfl]
      · rw [hd]
        show (if _ = _ then _ else _) = _
        rw [if_neg hq]
        have : packageDirs D.package = [] := by
          have h3 : (splitPackage D.package).1 = [] := by
            unfold splitPackage
            split
            · rfl
            · rw [rsplitDot_none.mpr hp]
          unfold packageDirs
          rw [h3]
          rfl
        rw [this] at he
        cases he
        rfl
      · rw [ht, Option.getD_some, servicesIn_ok hF] at hs
        exact writeServices_none hs
    · cases h2
      rw [ht, Option.getD_some, servicesIn_ok hF] at hs
      obtain ⟨texts, hc, _⟩ := writeServices_some hs
      exact Or.inr ⟨D, _, t, F, rest, hD, hout, ht, hF, Or.inl ⟨texts, rfl, hc⟩⟩
    · cases h2

/-- With `no_output` the generator is not called. -/
theorem C113_no_output {H : Hooks σ} {junk : Str} {n : Nat} {j : Job} {d d' : Disk} {s s' : σ} {r : Except HookError Unit}
    (hn : j.noOutput = true) (h : writeProtoWith H junk n j d s = (r, d', s')) : s' = s := by
  rcases writeProtoWith_spec h with ⟨_, _, _, h2⟩ | ⟨D, hD, d1, h1, ⟨_, _, _, h2⟩ | ⟨_, ⟨_, _, _, h2⟩ | ⟨hn', _⟩⟩⟩
  · exact h2
  · exact h2
  · exact h2
  · rw [hn] at hn'; cases hn'

/-- Whatever the generator writes and includes, the run changes nothing on the disk but the file it generates and files called `mod.rs`. -/
theorem C113_touches {H : Hooks σ} {junk : Str} {n : Nat} {j : Job} {d d' : Disk} {s s' : σ} {r : Except HookError Unit}
    (h : writeProtoWith H junk n j d s = (r, d', s')) : OnlyWrites (fun p => j.out n d = some p) d d' := by
  rcases writeProtoWith_spec h with ⟨_, _, rfl, _⟩ | ⟨D, hD, d1, h1, h2⟩
  · exact .refl _ _
  · have h1 : OnlyWrites (fun p => j.out n d = some p) d d1 := h1.mono fun _ x => x.elim
    have hout : j.out n d = some (outPath D.package j.outFile) := by unfold Job.out; rw [hD]; rfl
    have hput : ∀ t, OnlyWrites (fun p => j.out n d = some p) d1 (d1.put (outPath D.package j.outFile) t) :=
      fun t => (OnlyWrites.put d1 _ t).mono fun p hp => by rw [hp]; exact hout
    rcases h2 with ⟨_, _, rfl, _⟩ | ⟨_, ⟨_, _, rfl, _⟩ | ⟨_, ⟨_, _, _, rfl, _⟩ | ⟨t, _, ⟨_, _, rfl⟩ | ⟨ts, _, ⟨_, _, rfl⟩ | ⟨_, h3⟩⟩⟩⟩⟩
    · exact h1
    · exact h1
    · exact h1.trans (hput _)
    · exact h1.trans (hput _)
    · exact h1.trans (hput _)
    · exact h1.trans ((hput _).trans (.updateMod h3))

theorem forall₂_mono {α β : Type} {R S : α → β → Prop} {l : List α} {l' : List β} (h : List.Forall₂ R l l') :
    (∀ a ∈ l, ∀ b, R a b → S a b) → List.Forall₂ S l l' := by
  induction h with
  | nil => intro _; exact .nil
  | cons h1 _ ih =>
    intro hs
    exact .cons (hs _ (List.mem_cons_self ..) _ h1) (ih fun a ha => hs a (List.mem_cons_of_mem _ ha))

/-- Several files, one after another: a generator that keeps a list of the services it is called for ends up with the services of the first
file, then those of the second, and so on. -/
theorem C113_recorded_partial {junk : Str} {n : Nat} (js : List (Job × (RpcService → Option Str) × List Str)) :
    ∀ {d d' : Disk} {seen seen' : List RpcService}, (∀ j ∈ js, j.1.noOutput = false ∧ ¬ IsRs j.1.inFile) →
    runWith junk n (js.map fun j => (j.1, { rpc := recorder j.2.1, includes := j.2.2 })) d seen = (.ok (), d', seen') →
    ∃ Fs : List File, List.Forall₂ (fun j F => ∃ t rest, d.file j.1.inFile = some t ∧ readProto t = .ok F rest) js Fs ∧
      seen' = seen ++ (Fs.map File.services).flatten := by
  induction js with
  | nil =>
    intro d d' seen seen' _ h
    cases h
    exact ⟨[], .nil, (List.append_nil _).symm⟩
  | cons j js ih =>
    intro d d' seen seen' hj h
    rw [List.map_cons, runWith] at h
    split at h
    · cases h
    · rename_i d1 seen1 h1
      obtain ⟨D, p, t, F, rest, texts, a, lines, b, _, _, h3, h4, h5, _⟩ := C113_written_partial (hj j (List.mem_cons_self ..)).1 h1
      obtain ⟨Fs, hFs, rfl⟩ := ih (fun x hx => hj x (List.mem_cons_of_mem _ hx)) h
      have hs : SameSources d d1 := (C113_touches h1).same fun _ hp => (C71_out hp).1
      refine ⟨F :: Fs, .cons ⟨t, rest, h3, h4⟩ ?_, ?_⟩
      · refine forall₂_mono hFs fun x hx F' ⟨t', r', h6, h7⟩ => ⟨t', r', ?_, h7⟩
        rw [← hs _ (hj x (List.mem_cons_of_mem _ hx)).2, h6]
      · rw [h5.recorder.1, List.map_cons, List.flatten_cons, List.append_assoc]

end QP.Pbrs

namespace QP.Pbrs
open Parse RunExample

/-! ## Examples -/

/-- A file with two services. -/
def rpcDisk : Disk := disk [(c! "x.proto", c! "message struct { optional int32 a = 1; } service S { rpc f(struct) returns (struct); rpc g ( struct ) returns ( struct ) { } } service T { rpc h(struct) returns (struct); }")] []

/-- A generator that writes the name of the service, and one line to include. -/
def rpcHooks : Hooks (List RpcService) := { rpc := recorder fun r => some (c! "pub trait " ++ r.name ++ c! " {}"), includes := [c! "use crate::rpc;"] }

def rpcJob : Job := { inFile := c! "x.proto", outFile := c! "x.rs" }

/-- Both services are seen, with all their functions and the names as they are written; the texts and the line are in the file. -/
theorem C113_example : ∃ d' t, writeProtoWith rpcHooks [] 1 rpcJob rpcDisk [] =
      (.ok (), d', [⟨c! "S", [⟨c! "f", c! "struct", c! "struct"⟩, ⟨c! "g", c! "struct", c! "struct"⟩]⟩, ⟨c! "T", [⟨c! "h", c! "struct", c! "struct"⟩]⟩]) ∧
    d'.file (c! "x.rs") = some t ∧ c! "use quick_protobuf::sizeofs::*;\nuse crate::rpc;\nuse super::*;\n" <:+: t ∧
    c! "\npub trait S {}\npub trait T {}\n" <:+ t := by
  have h : (match writeProtoWith rpcHooks [] 1 rpcJob rpcDisk [] with
    | (.ok (), d', s) =>
      decide (s = [⟨c! "S", [⟨c! "f", c! "struct", c! "struct"⟩, ⟨c! "g", c! "struct", c! "struct"⟩]⟩, ⟨c! "T", [⟨c! "h", c! "struct", c! "struct"⟩]⟩]) &&
      (match d'.file (c! "x.rs") with
      | some t => decide (c! "use quick_protobuf::sizeofs::*;\nuse crate::rpc;\nuse super::*;\n" <:+: t) && decide (c! "\npub trait S {}\npub trait T {}\n" <:+ t)
      | none => false)
    | _ => false) = true := by decide +kernel
  split at h
  · rename_i d' s hw
    rw [Bool.and_eq_true, decide_eq_true_eq] at h
    obtain ⟨rfl, h⟩ := h
    cases hf : d'.file (c! "x.rs") with
    | none => rw [hf] at h; cases h
    | some t =>
      rw [hf, Bool.and_eq_true, decide_eq_true_eq, decide_eq_true_eq] at h
      exact ⟨d', t, hw, hf, h.1, h.2⟩
  · cases h

/-- A generator that fails for the second service. -/
theorem C113_example_failing : ∃ d', writeProtoWith { rpc := recorder fun r => if r.name = c! "T" then none else some [] } (c! "junk") 1 rpcJob rpcDisk [] =
      (.error .rpc, d', servicesIn ((rpcDisk.file (c! "x.proto")).getD [])) ∧ d'.file (c! "x.rs") = some (c! "junk") ∧ d'.file (c! "mod.rs") = none := by
  have h : (match writeProtoWith { rpc := recorder fun r => if r.name = c! "T" then none else some [] } (c! "junk") 1 rpcJob rpcDisk [] with
    | (.error .rpc, d', s) => decide (s = servicesIn ((rpcDisk.file (c! "x.proto")).getD [])) && decide (d'.file (c! "x.rs") = some (c! "junk")) &&
      decide (d'.file (c! "mod.rs") = none)
    | _ => false) = true := by decide +kernel
  split at h
  · rename_i d' s hw
    rw [Bool.and_eq_true, Bool.and_eq_true, decide_eq_true_eq, decide_eq_true_eq, decide_eq_true_eq] at h
    obtain ⟨⟨hs, h1⟩, h2⟩ := h
    exact ⟨d', by rw [← hs]; exact hw, h1, h2⟩
  · cases h

/-! ## What does not hold -/

/-- The names that the generator gets are not those of the generated types: the message `struct` is generated as `struct_pb`. -/
theorem C113_refuted_names : ∃ d' t s, writeProtoWith rpcHooks [] 1 rpcJob rpcDisk [] = (.ok (), d', s) ∧
    (∃ r ∈ s, ∃ f ∈ r.functions, f.arg = c! "struct") ∧ d'.file (c! "x.rs") = some t ∧ c! "pub struct struct_pb {" <:+: t ∧ ¬ c! "pub struct struct {" <:+: t := by
  have h : (match writeProtoWith rpcHooks [] 1 rpcJob rpcDisk [] with
    | (.ok (), d', s) => s.any (fun r => r.functions.any fun f => decide (f.arg = c! "struct")) &&
      (match d'.file (c! "x.rs") with
      | some t => decide (c! "pub struct struct_pb {" <:+: t) && decide (¬ c! "pub struct struct {" <:+: t)
      | none => false)
    | _ => false) = true := by decide +kernel
  split at h
  · rename_i d' s hw
    rw [Bool.and_eq_true] at h
    obtain ⟨h1, h⟩ := h
    cases hf : d'.file (c! "x.rs") with
    | none => rw [hf] at h; cases h
    | some t =>
      rw [hf, Bool.and_eq_true, decide_eq_true_eq, decide_eq_true_eq] at h
      obtain ⟨r, hr, h1⟩ := List.any_eq_true.mp h1
      obtain ⟨f, hf', h1⟩ := List.any_eq_true.mp h1
      exact ⟨d', t, s, hw, ⟨r, hr, f, hf', of_decide_eq_true h1⟩, hf, h.1, h.2⟩
  · cases h

/-- A file whose messages are all empty: the line to include is lost, although the service of the file is generated. -/
theorem C113_refuted_includes : ∃ d' t s, writeProtoWith rpcHooks [] 1 rpcJob (disk [(c! "x.proto", c! "message E { } service S { rpc f(E) returns (E); }")] []) [] = (.ok (), d', s) ∧
    d'.file (c! "x.rs") = some t ∧ c! "pub trait S {}" <:+: t ∧ ¬ c! "use crate::rpc;" <:+: t := by
  have h : (match writeProtoWith rpcHooks [] 1 rpcJob (disk [(c! "x.proto", c! "message E { } service S { rpc f(E) returns (E); }")] []) [] with
    | (.ok (), d', s) =>
      (match d'.file (c! "x.rs") with
      | some t => decide (c! "pub trait S {}" <:+: t) && decide (¬ c! "use crate::rpc;" <:+: t)
      | none => false)
    | _ => false) = true := by decide +kernel
  split at h
  · rename_i d' s hw
    cases hf : d'.file (c! "x.rs") with
    | none => rw [hf] at h; cases h
    | some t =>
      rw [hf, Bool.and_eq_true, decide_eq_true_eq, decide_eq_true_eq] at h
      exact ⟨d', t, s, hw, hf, h.1, h.2⟩
  · cases h

/-- A file with nothing but services is rejected, and the generator is not called. -/
theorem C113_refuted_only_services : ∃ e d', writeProtoWith rpcHooks [] 1 rpcJob (disk [(c! "x.proto", c! "service S { rpc f(E) returns (E); }")] []) [] =
    (.error (.run (.pbrs e)), d', []) := by
  have h : (match writeProtoWith rpcHooks [] 1 rpcJob (disk [(c! "x.proto", c! "service S { rpc f(E) returns (E); }")] []) [] with
    | (.error (.run (.pbrs e)), d', s) => decide (s = [])
    | _ => false) = true := by decide +kernel
  split at h
  · rename_i e d' s hw
    cases of_decide_eq_true h
    exact ⟨e, d', hw⟩
  · cases h

end QP.Pbrs
