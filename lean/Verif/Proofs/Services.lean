import Verif.Spec.Services
import Verif.Spec.Run
import Verif.Proofs.Run
/-!
# Runs with hooks: lemmas for `Props/Services.lean`
-/

set_option linter.unusedVariables false

namespace QP.Pbrs
open Parse

variable {σ : Type}

/-! ## Calls -/

theorem writeServices_some {H : Hooks σ} {rs : List RpcService} : ∀ {s s' : σ} {out : Str}, writeServices H rs s = (some out, s') →
    ∃ texts, Calls H.rpc rs s texts s' ∧ out = (texts.map fun t => '\n' :: t).flatten := by
  induction rs with
  | nil => intro s s' out h; cases h; exact ⟨[], .done _, rfl⟩
  | cons r rs ih =>
    intro s s' out h
    rw [writeServices] at h
    split at h
    · cases h
    · rename_i t s1 h1
      split at h
      · cases h
      · rename_i ts s2 h2
        cases h
        obtain ⟨texts, hc, rfl⟩ := ih h2
        exact ⟨t :: texts, .call h1 hc, by simp⟩

theorem writeServices_none {H : Hooks σ} {rs : List RpcService} : ∀ {s s' : σ}, writeServices H rs s = (none, s') →
    ∃ before r after texts s1, rs = before ++ r :: after ∧ Calls H.rpc before s texts s1 ∧ H.rpc r s1 = (none, s') := by
  induction rs with
  | nil => intro s s' h; cases h
  | cons r rs ih =>
    intro s s' h
    rw [writeServices] at h
    split at h
    · rename_i s1 h1
      cases h
      exact ⟨[], r, rs, [], s, rfl, .done _, h1⟩
    · rename_i t s1 h1
      split at h
      · rename_i s2 h2
        cases h
        obtain ⟨b, r', a, texts, s3, rfl, hc, hr⟩ := ih h2
        exact ⟨r :: b, r', a, t :: texts, s3, rfl, .call h1 hc, hr⟩
      · cases h

theorem Calls.length {gen : RpcService → σ → Option Str × σ} {rs : List RpcService} {s s' : σ} {ts : List Str} (h : Calls gen rs s ts s') :
    ts.length = rs.length := by
  induction h with
  | done => rfl
  | call _ _ ih => simp [ih]

theorem Calls.recorder {f : RpcService → Option Str} {rs : List RpcService} {s s' : List RpcService} {ts : List Str}
    (h : Calls (recorder f) rs s ts s') : s' = s ++ rs ∧ rs.map f = ts.map some := by
  generalize hg : Pbrs.recorder f = gen at h
  induction h with
  | done => simp
  | call h1 _ ih =>
    subst hg
    obtain ⟨rfl, h2⟩ := ih
    simp only [Pbrs.recorder, Prod.mk.injEq] at h1
    obtain ⟨h1, rfl⟩ := h1
    simp [h1, h2]

theorem writeServices_default (rs : List RpcService) (s : σ) :
    writeServices (Hooks.default σ) rs s = (some (List.replicate rs.length '\n'), s) := by
  induction rs with
  | nil => rfl
  | cons r rs ih =>
    have e : writeServices (Hooks.default σ) (r :: rs) s =
      (match writeServices (Hooks.default σ) rs s with
      | (none, s) => (none, s)
      | (some ts, s) => (some ('\n' :: [] ++ ts), s)) := rfl
    rw [e, ih]
    rfl

theorem servicesOf_length (text : Str) : servicesOf text = (servicesIn text).length := by
  unfold servicesOf servicesIn
  cases readProto text <;> rfl

mutual
theorem hollow_of : (m : Message) → m.isUnit = true → Hollow m
  | ⟨_, fields, oneofs, _, _, _, _, messages, _, _, _⟩, h => by
    rw [Message.isUnit, Bool.and_eq_true, Bool.and_eq_true] at h
    exact .hollow (List.isEmpty_iff.mp h.1.1) (List.isEmpty_iff.mp h.1.2) (hollow_all messages h.2)
theorem hollow_all : (ms : List Message) → Message.allUnit ms = true → ∀ x ∈ ms, Hollow x
  | [], _ => fun x hx => by cases hx
  | m :: ms, h => fun x hx => by
    rw [Message.allUnit, Bool.and_eq_true] at h
    rcases List.mem_cons.mp hx with e | hx
    · exact e ▸ hollow_of m h.1
    · exact hollow_all ms h.2 x hx
end

/-! ## Texts -/

theorem Doc.str_append (a b : Doc) : (a ++ b).str = a.str ++ b.str := a.front _

theorem replicate_str (k : Nat) : (Doc.concat (List.replicate k Doc.nl)).str = List.replicate k '\n' := by
  induction k with
  | zero => rfl
  | succ k ih =>
    rw [List.replicate_succ, List.replicate_succ, Doc.concat, Doc.str_append, ih]
    rfl

theorem lines_str (l : List Str) : (Doc.concat (l.map fun i => ln (Doc.lit i))).str = (l.map fun i => i ++ ['\n']).flatten := by
  induction l with
  | nil => rfl
  | cons i l ih =>
    rw [List.map_cons, Doc.concat, Doc.str_append, ih, List.map_cons, List.flatten_cons, ln, Doc.str_append]
    congr 1
    show (i ++ []) ++ ['\n'] = _
    rw [List.append_nil]

/-- What is printed up to the services, with and without included lines. -/
theorem writeBefore_spec (D : FileDescriptor) (cfg : Config) (filename : Str) (k : Nat) (includes : List Str) :
    (∃ e, D.writeBefore cfg filename includes = .error e ∧ D.write cfg filename k = .error e) ∨
    ∃ t t0 a b lines, D.writeBefore cfg filename includes = .ok t ∧ D.write cfg filename k = .ok t0 ∧ t.str = a ++ lines ++ b ∧
      t0.str = a ++ b ++ List.replicate k '\n' ++ ['\n'] ∧
      ((lines = (includes.map fun i => i ++ ['\n']).flatten ∧ ∃ a', a = a' ++ c! "use quick_protobuf::sizeofs::*;\n") ∨
        lines = [] ∧ D.messages.all Message.isUnit = true) := by
  unfold FileDescriptor.writeBefore FileDescriptor.write FileDescriptor.writeUsesWith
  generalize hh : (if cfg.headers = true then FileDescriptor.writeHeaders cfg filename else Doc.empty) = H
  by_cases hu : D.messages.all Message.isUnit = true
  · rw [if_pos hu]
    cases h1 : D.writeUses cfg with
    | error e => exact Or.inl ⟨e, rfl, rfl⟩
    | ok uses =>
      cases h2 : D.writeEnums with
      | error e => exact Or.inl ⟨e, rfl, rfl⟩
      | ok enums =>
        cases h3 : D.writeMessages cfg with
        | error e => exact Or.inl ⟨e, rfl, rfl⟩
        | ok ms =>
          refine Or.inr ⟨_, _, _, [], [], rfl, rfl, (by rw [List.append_nil, List.append_nil]), ?_, Or.inr ⟨rfl, hu⟩⟩
          rw [Doc.str_append (_ ++ _) Doc.nl, Doc.str_append _ (Doc.concat _), replicate_str, List.append_nil]
          rfl
  · rw [if_neg hu]
    have hw : ∀ uses, D.writeUses cfg = .ok uses → ∃ a', uses.str = a' ++ c! "use quick_protobuf::sizeofs::*;\n" := by
      intro uses h
      unfold FileDescriptor.writeUses at h
      simp only [if_neg hu] at h
      cases hc : Message.writeCommonUses D cfg D.messages with
      | error e => rw [hc] at h; cases h
      | ok u =>
        rw [hc] at h
        cases h
        exact ⟨_, Doc.str_append _ _⟩
    cases h1 : D.writeUses cfg with
    | error e => exact Or.inl ⟨e, rfl, rfl⟩
    | ok uses =>
      cases h2 : D.writeEnums with
      | error e => exact Or.inl ⟨e, rfl, rfl⟩
      | ok enums =>
        cases h3 : D.writeMessages cfg with
        | error e => exact Or.inl ⟨e, rfl, rfl⟩
        | ok ms =>
          obtain ⟨a', ha'⟩ := hw uses h1
          refine Or.inr ⟨_, _, (H ++ Doc.nl ++ uses).str, (D.writeImports ++ enums ++ ms).str,
            (includes.map fun i => i ++ ['\n']).flatten, rfl, rfl, ?_, ?_, Or.inl ⟨rfl, (H ++ Doc.nl).str ++ a', ?_⟩⟩
          · rw [← lines_str, ← Doc.str_append, ← Doc.str_append]
            rfl
          · rw [Doc.str_append (_ ++ _) Doc.nl, Doc.str_append _ (Doc.concat _), replicate_str, ← Doc.str_append]
            rfl
          · rw [Doc.str_append _ uses, ha', List.append_assoc]

/-! ## Runs -/

/-- All that `write_proto` with hooks does. -/
theorem writeProtoWith_spec {H : Hooks σ} {junk : Str} {n : Nat} {j : Job} {d d' : Disk} {s s' : σ} {r : Except HookError Unit}
    (h : writeProtoWith H junk n j d s = (r, d', s')) :
    (j.compiled n d = none ∧ (∃ e, r = .error (.run (.pbrs e))) ∧ d' = d ∧ s' = s) ∨
    ∃ D, j.compiled n d = some D ∧ ∃ d1, OnlyWrites (fun _ => False) d d1 ∧
      ((∃ e, r = .error (.run e) ∧ d' = d1 ∧ s' = s) ∨
       (enterDirs d (parentPath j.outFile) (packageDirs D.package) = (.ok ((packageDirs D.package).foldl joinPath (parentPath j.outFile)), d1) ∧
        ((j.noOutput = true ∧ r = .ok () ∧ d' = d1 ∧ s' = s) ∨
         (j.noOutput = false ∧
          ((∃ e, r = .error (.run (.emit e)) ∧ D.writeBefore j.cfg (splitSlash j.inFile).2 H.includes = .error e ∧
              d' = d1.put (outPath D.package j.outFile) junk ∧ s' = s) ∨
          ∃ t, D.writeBefore j.cfg (splitSlash j.inFile).2 H.includes = .ok t ∧
            ((r = .error .rpc ∧ writeServices H (servicesIn ((d.file j.inFile).getD [])) s = (none, s') ∧
                d' = d1.put (outPath D.package j.outFile) junk) ∨
            ∃ ts, writeServices H (servicesIn ((d.file j.inFile).getD [])) s = (some ts, s') ∧
             ((r = .error (.run .panic) ∧ (d1.put (outPath D.package j.outFile) (t.str ++ ts ++ ['\n'])).updateMod (outPath D.package j.outFile) = none ∧
                d' = d1.put (outPath D.package j.outFile) (t.str ++ ts ++ ['\n'])) ∨
              (r = .ok () ∧ (d1.put (outPath D.package j.outFile) (t.str ++ ts ++ ['\n'])).updateMod (outPath D.package j.outFile) = some d')))))))) := by
  unfold writeProtoWith at h
  split at h
  · rename_i e he
    cases h
    exact Or.inl ⟨by unfold Job.compiled; rw [he], ⟨e, rfl⟩, rfl, rfl⟩
  · rename_i D hD
    refine Or.inr ⟨D.printed j.cfg, by unfold Job.compiled; rw [hD], ?_⟩
    simp only at h
    split at h
    · rename_i e d1 h1
      cases h
      exact ⟨_, .enterDirs h1, Or.inl ⟨e, rfl, rfl, rfl⟩⟩
    · rename_i dir d1 h1
      have hdir := enterDirs_ok h1
      refine ⟨d1, .enterDirs h1, ?_⟩
      subst hdir
      change (if j.noOutput = true then _ else _) = _ at h
      split at h
      · rename_i hn
        cases h
        exact Or.inr ⟨h1, Or.inl ⟨hn, rfl, rfl, rfl⟩⟩
      · rename_i hn
        split at h
        · cases h
          exact Or.inl ⟨_, rfl, rfl, rfl⟩
        · refine Or.inr ⟨h1, Or.inr ⟨by simpa using hn, ?_⟩⟩
          split at h
          · rename_i e he
            cases h
            exact Or.inl ⟨e, rfl, he, rfl, rfl⟩
          · rename_i t ht
            refine Or.inr ⟨t, ht, ?_⟩
            split at h
            · rename_i s1 hs
              cases h
              exact Or.inl ⟨rfl, hs, rfl⟩
            · rename_i ts s1 hs
              split at h
              · rename_i hu
                cases h
                exact Or.inr ⟨ts, hs, Or.inl ⟨rfl, hu, rfl⟩⟩
              · rename_i d2 hu
                cases h
                exact Or.inr ⟨ts, hs, Or.inr ⟨rfl, hu⟩⟩

end QP.Pbrs
