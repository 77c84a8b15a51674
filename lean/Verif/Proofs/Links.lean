import Verif.Proofs.Located
import Verif.Spec.Links
import Verif.Props.Imports
import Verif.Props.Generated
set_option linter.unusedVariables false
/-!
# Declarations of imported files
-/

namespace QP.Rust
open QP.Pbrs

theorem setImported_descend (js : List Nat) : ∀ (m x : Message), m.setImported.descend js = some x →
    ∃ y, m.descend js = some y ∧ x = y.setImported := by
  induction js with
  | nil => intro m x h; cases h; exact ⟨m, rfl, rfl⟩
  | cons j js ih =>
    intro m x h
    obtain ⟨name, fields, oneofs, nums, names, imported, pkg, messages, enums, module, index⟩ := m
    simp only [Message.setImported, Message.descend, setImportedAll_eq, List.getElem?_map] at h
    obtain ⟨z, hz, h⟩ := Option.bind_eq_some_iff.mp h
    obtain ⟨w, hw, rfl⟩ := Option.map_eq_some_iff.mp hz
    obtain ⟨y, hy, rfl⟩ := ih w x h
    exact ⟨y, by simp only [Message.descend]; rw [hw]; exact hy, rfl⟩

theorem getMessage_top {D : FileDescriptor} {i : Nat} {m : Message} : D.getMessage [i] = some m ↔ D.messages[i]? = some m := by
  rw [FileDescriptor.getMessage]
  constructor
  · intro h
    obtain ⟨t, ht, h⟩ := Option.bind_eq_some_iff.mp h
    cases h
    exact ht
  · intro h
    rw [h]; rfl

theorem printed_messages {D : FileDescriptor} {cfg : Config} : (D.printed cfg).messages = D.messages := by
  unfold FileDescriptor.printed; split <;> rfl

theorem printed_enums {D : FileDescriptor} {cfg : Config} : (D.printed cfg).enums = D.enums := by
  unfold FileDescriptor.printed; split <;> rfl

theorem printed_get {D : FileDescriptor} {cfg : Config} (idx : MessageIndex) : (D.printed cfg).getMessage idx = D.getMessage idx := by
  unfold FileDescriptor.getMessage; rw [printed_messages]

/-- The enums of a message have names and modules that depend on its shell. -/
theorem shell_enums {m m' : Message} (h : m'.shell = m.shell.sanitizeNames) {k : Nat} :
    m'.enums[k]?.map Enumerator.core = m.enums[k]?.map fun e => e.core.sanitizeNames := by
  cases m; cases m'
  simp only [Message.shell, Message.sanitizeNames, Message.mk.injEq] at h
  have := congrArg (·[k]?) h.2.2.2.2.2.2.2.2.1
  simpa [Function.comp_def] using this

section
variable {d : Disk} {crate : List Entry} {out : Path} {q : Str} {cfg : Config} {E : FileDescriptor} {es : List Entry}

/-- What a linked file is compiled from. -/
theorem linked_source (hl : Linked d crate out q cfg E es) {D0 : FileDescriptor} {imps : List Str} (hR : Reads d.file q D0 imps) :
    ∃ base, Located E base ∧ inside crate (out ++ base) = some es ∧ (∀ m ∈ D0.messages, m.imported = false) ∧ (∀ e ∈ D0.enums, e.imported = false) ∧
      (∀ idx y, D0.getMessage idx = some y → ∃ m', E.getMessage idx = some m' ∧ m'.shell = y.shell.sanitizeNames) ∧
      (∀ (k : Nat) (e : Enumerator), D0.enums[k]? = some e → ∃ e', E.enums[k]? = some e' ∧ e'.core = e.core.sanitizeNames) := by
  obtain ⟨n, j, D, rfl, rfl, hr, hE⟩ := hl.compiled
  obtain ⟨text, F, r, ht, hF, hk, hin⟩ := hl.place
  obtain ⟨D', hc, rfl⟩ := compiled_compile hr hE
  obtain ⟨D1, imps', ms, es', hR', h1, h2, h3, h4, _⟩ := read_own hr
  obtain ⟨rfl, rfl⟩ := reads_unique hR hR'
  obtain ⟨text', F', r', ht', hF', _, rfl⟩ := reads_parsed hR
  cases ht.symm.trans ht'
  cases hF.symm.trans hF'
  have hN := Parse.readProto_named hF
  refine ⟨baseOf F.desc.package j.inFile,
    located (F := { F.desc with module := _ }) (D := { D with owned := j.cfg.owned }) hN.messages hN.enums h1 h2 h3 h4 hc hk, hin, ?_, ?_, ?_, ?_⟩
  · intro m hm
    obtain ⟨i, hi⟩ := List.mem_iff_getElem?.mp hm
    refine own_message ?_ hi
    exact hN.messages
  · intro e he
    refine own_enum ?_ he
    exact hN.enums
  · intro idx y hy
    have hy : ({ D with owned := j.cfg.owned } : FileDescriptor).getMessage idx = some y := QP.Rust.getMessage_append h1 hy
    have := (compile_shells hc).1 idx
    rw [hy] at this
    obtain ⟨m', hm', h⟩ := Option.map_eq_some_iff.mp this
    exact ⟨m', by rw [printed_get]; exact hm', h⟩
  · intro k e he
    have hlt : k < ({ F.desc with module := _ } : FileDescriptor).setPackages.enums.length := (List.getElem?_eq_some_iff.mp he).1
    have he : ({ D with owned := j.cfg.owned } : FileDescriptor).enums[k]? = some e := by
      show D.enums[k]? = _
      rw [h3, List.getElem?_append_left hlt]
      exact he
    have := congrArg (·[k]?) (compile_shells hc).2.1
    simp only [List.getElem?_map, he, Option.map_some] at this
    obtain ⟨e', he', h⟩ := Option.map_eq_some_iff.mp this
    exact ⟨e', by rw [printed_enums]; exact he', h⟩

theorem linked_own (hl : Linked d crate out q cfg E es) {D0 : FileDescriptor} {imps : List Str} (hR : Reads d.file q D0 imps) {idx : MessageIndex} {y m' : Message}
    (hy : D0.getMessage idx = some y) (hm : E.getMessage idx = some m') : Own E idx := by
  obtain ⟨base, _, _, hi, _, hg, _⟩ := linked_source hl hR
  cases idx with
  | nil => cases hy
  | cons i is =>
    rw [FileDescriptor.getMessage] at hy
    obtain ⟨t, ht, _⟩ := Option.bind_eq_some_iff.mp hy
    obtain ⟨t', ht', hsh⟩ := hg [i] t (getMessage_top.mpr ht)
    exact ⟨i, is, t', rfl, getMessage_top.mp ht', by rw [(shell_facts hsh).2.2.1]; exact hi t (List.mem_of_getElem? ht)⟩

end

/-- Where an imported message is from. -/
theorem imported_source {n : Nat} {j : Job} {d : Disk} {D E : FileDescriptor} (hr : readProtoFile d.file j.search n j.inFile = .ok D)
    (hE : j.compiled n d = some E) (hp : ∀ s, Imports d.file j.search j.inFile s → AllPackaged d.file j.search s) {i : Nat} {is : List Nat} {t m : Message}
    (ht : E.messages[i]? = some t) (hi : t.imported = true) (hm : E.getMessage (i :: is) = some m) :
    ∃ s q D0 imps k y, Imports d.file j.search j.inFile s ∧ ImportsStar d.file j.search s q ∧ Reads d.file q D0 imps ∧
      D0.getMessage (k :: is) = some y ∧ m.shell = y.setImported.shell.sanitizeNames := by
  obtain ⟨D', hc, rfl⟩ := compiled_compile hr hE
  have hs := (compile_shells hc).1
  rw [printed_messages] at ht
  rw [printed_get] at hm
  obtain ⟨D0, imps, ms, es', hR', h1, h2, h3, h4, _⟩ := read_own hr
  obtain ⟨text, F, r, _, hF, _, rfl⟩ := reads_parsed hR'
  have hN := Parse.readProto_named hF
  have ht0 := hs [i]
  rw [getMessage_top.mpr ht] at ht0
  obtain ⟨t0, ht0, hts⟩ := Option.map_eq_some_iff.mp ht0.symm
  have ht1 : D.messages[i]? = some t0 := getMessage_top.mp ht0
  obtain ⟨D1, imps1, hR1, _, _, hmm, _⟩ := sources_direct hp hr
  obtain ⟨rfl, rfl⟩ := reads_unique hR1 hR'
  rcases hmm t0 (List.mem_of_getElem? ht1) with h | ⟨s, q, Eq, is', himp, hstar, hR, t1, ht1', rfl⟩
  · obtain ⟨k, hk⟩ := List.mem_iff_getElem?.mp h
    have : t0.imported = false := by
      refine own_message ?_ hk
      exact hN.messages
    rw [← (shell_facts hts.symm).2.2.1, hi] at this
    cases this
  · obtain ⟨k, hk⟩ := List.mem_iff_getElem?.mp ht1'
    have hm0 := hs (i :: is)
    rw [hm] at hm0
    obtain ⟨x, hx, hsh⟩ := Option.map_eq_some_iff.mp hm0.symm
    have hx : t1.setImported.descend is = some x := by
      have hx : (D.messages[i]?.bind fun m => m.descend is) = some x := hx
      rw [ht1] at hx
      exact hx
    obtain ⟨y, hy, rfl⟩ := setImported_descend is t1 x hx
    exact ⟨s, q, Eq, is', k, y, himp, hstar, hR, by rw [FileDescriptor.getMessage, hk]; exact hy, hsh.symm⟩

/-- Where an imported enum is from. -/
theorem imported_enum_source {n : Nat} {j : Job} {d : Disk} {D E : FileDescriptor} (hr : readProtoFile d.file j.search n j.inFile = .ok D)
    (hE : j.compiled n d = some E) (hp : ∀ s, Imports d.file j.search j.inFile s → AllPackaged d.file j.search s) {e : Enumerator} (he : e ∈ E.enums) (hi : e.imported = true) :
    ∃ s q D0 imps, ∃ (k : Nat) (e0 : Enumerator), Imports d.file j.search j.inFile s ∧ ImportsStar d.file j.search s q ∧ Reads d.file q D0 imps ∧
      D0.enums[k]? = some e0 ∧ e.core = ({ e0 with imported := true } : Enumerator).core.sanitizeNames := by
  obtain ⟨D', hc, rfl⟩ := compiled_compile hr hE
  have hs := (compile_shells hc).2.1
  rw [printed_enums] at he
  obtain ⟨D0, imps, ms, es', hR', h1, h2, h3, h4, _⟩ := read_own hr
  obtain ⟨text, F, r, _, hF, _, rfl⟩ := reads_parsed hR'
  have hN := Parse.readProto_named hF
  have : e.core ∈ D'.enums.map Enumerator.core := List.mem_map_of_mem he
  rw [hs] at this
  obtain ⟨e0, he0, hc0⟩ := List.mem_map.mp this
  have i1 := congrArg Enumerator.imported hc0
  have i1 : e0.imported = e.imported := i1
  obtain ⟨D1, imps1, hR1, _, _, _, hmm⟩ := sources_direct hp hr
  obtain ⟨rfl, rfl⟩ := reads_unique hR1 hR'
  rcases hmm e0 he0 with h | ⟨s, q, Eq, is', himp, hstar, hR, t1, ht1', rfl⟩
  · have : e0.imported = false := by
      refine own_enum ?_ h
      exact hN.enums
    rw [i1, hi] at this
    cases this
  · obtain ⟨k, hk⟩ := List.mem_iff_getElem?.mp ht1'
    exact ⟨s, q, Eq, is', k, t1, himp, hstar, hR, hk, hc0.symm⟩

end QP.Rust
