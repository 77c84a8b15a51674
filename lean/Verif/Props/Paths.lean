import Verif.Proofs.Labels
import Verif.Proofs.Located
import Verif.Proofs.Links
import Verif.Props.Getters
set_option linter.unusedVariables false
/-!
# The generated file as a whole (C88), and what its paths mean (C89)
-/

namespace QP.Rust
open QP.Pbrs QP.Gen

/-! ## Everything in the file -/

/-- What pb-rs leaves on the disk consists of the entries that `Spec/Layout.lean` lists for what it compiled, in this order, and of
nothing else, if no field of a proto2 file has a label of proto3. -/
theorem layout_of_labels {junk : Str} {n : Nat} {j : Job} {d d' : Disk} {D : FileDescriptor} (hn : j.noOutput = false)
    (h : writeProto junk n j d = (.ok (), d')) (hr : readProtoFile d.file j.search n j.inFile = .ok D)
    (h3 : ∀ E, j.compiled n d = some E → E.syntax_ = .proto2 → ∀ idx m, Own E idx → E.getMessage idx = some m → ∀ f ∈ m.fields, f.frequency ≠ .p3optional) :
    ∃ p E es, j.out n d = some p ∧ j.compiled n d = some E ∧
      fileEntries E j.cfg (splitSlash j.inFile).2 (servicesOf ((d.file j.inFile).getD [])) = some es ∧ d'.file p = some (Entry.docs es).str := by
  obtain ⟨p, t, hp, ht, hd⟩ := C73_written hn h
  unfold Job.text at ht
  obtain ⟨E, hE, ht⟩ := Option.bind_eq_some_iff.mp ht
  have h3 := h3 E hE
  obtain ⟨D', hc, hEp⟩ := compiled_compile hr hE
  subst hEp
  cases hw : (D'.printed j.cfg).write j.cfg (splitSlash j.inFile).2 (servicesOf ((d.file j.inFile).getD [])) with
  | error e => simp only [hw] at ht; cases ht
  | ok text =>
    simp only [hw] at ht
    cases ht
    have hmsgs : (D'.printed j.cfg).messages = D'.messages := by unfold FileDescriptor.printed; split <;> rfl
    have henums : (D'.printed j.cfg).enums = D'.enums := by unfold FileDescriptor.printed; split <;> rfl
    obtain ⟨es, hes, rfl⟩ := file_text (D := D'.printed j.cfg) (fun e he hi hfe => by
      obtain ⟨D0, imps, ms, es, hR, _, _, he2, he3, _⟩ := read_own hr
      obtain ⟨text, F, r, _, hF, _, rfl⟩ := reads_parsed hR
      have hcore := (compile_shells hc).2.1
      rw [henums] at he
      have : e.core ∈ D'.enums.map Enumerator.core := List.mem_map_of_mem he
      rw [hcore] at this
      obtain ⟨e0, he0, hc0⟩ := List.mem_map.mp this
      have he0 : e0 ∈ D.enums := he0
      rw [he2] at he0
      rcases List.mem_append.mp he0 with he0 | he0
      · simp only [FileDescriptor.setPackages] at he0
        obtain ⟨x, _, rfl⟩ := List.mem_map.mp he0
        have k1 := congrArg Enumerator.fields hc0
        have k2 := congrArg Enumerator.partiallyQualified hc0
        have k1 : x.fields.map (fun f => (sanitizeKeyword f.1, f.2)) = e.fields := k1
        have k2 : x.fields.map (fun f => x.name ++ ':' :: ':' :: f.1) = e.partiallyQualified := k2
        rw [hfe, List.map_eq_nil_iff] at k1
        rw [← k2, k1]
        rfl
      · have i1 := congrArg Enumerator.imported hc0
        have i1 : e0.imported = e.imported := i1
        rw [he3 e0 he0, hi] at i1
        cases i1) (fun m hm hi js x hx => by
      obtain ⟨i, hmi⟩ := List.mem_iff_getElem?.mp hm
      have hg : (D'.printed j.cfg).getMessage (i :: js) = some x := by rw [FileDescriptor.getMessage, hmi]; exact hx
      refine ⟨compile_sane_any (D := { D with owned := j.cfg.owned }) (fun m hm => readProtoFile_out n hr m hm) hc (i := i :: js) ?_, fun hs => h3 hs (i :: js) x ⟨i, js, m, rfl, hmi, hi⟩ hg⟩
      rw [← hg]
      unfold FileDescriptor.getMessage
      rw [hmsgs]) hw
    exact ⟨p, _, es, hp, hE, hes, hd⟩

/-- What was compiled was read. -/
theorem compiled_read {n : Nat} {j : Job} {d : Disk} {E : FileDescriptor} (hE : j.compiled n d = some E) :
    ∃ D, readProtoFile d.file j.search n j.inFile = .ok D := by
  unfold Job.compiled compileFile at hE
  cases hr : readProtoFile d.file j.search n j.inFile with
  | ok D => exact ⟨D, rfl⟩
  | _ => rw [hr] at hE; cases hE

/-- **C88.** What pb-rs leaves on the disk consists of the entries that `Spec/Layout.lean` lists for what it compiled, in this order, and of
nothing else. (`OneSyntax`: no two contradicting syntax statements.) -/
theorem C88_layout {junk : Str} {n : Nat} {j : Job} {d d' : Disk} (hn : j.noOutput = false) (h : writeProto junk n j d = (.ok (), d'))
    (hs : ∀ text, d.file j.inFile = some text → OneSyntax text) :
    ∃ p E es, j.out n d = some p ∧ j.compiled n d = some E ∧
      fileEntries E j.cfg (splitSlash j.inFile).2 (servicesOf ((d.file j.inFile).getD [])) = some es ∧ d'.file p = some (Entry.docs es).str := by
  obtain ⟨p, t, _, ht, _⟩ := C73_written hn h
  unfold Job.text at ht
  obtain ⟨E, hE, _⟩ := Option.bind_eq_some_iff.mp ht
  obtain ⟨D, hr⟩ := compiled_read hE
  exact layout_of_labels hn h hr (own_labels hr hs)

/-- The modules that pb-rs notes for what a file declares are those where the code is, if no message in which something is declared
has a name that is changed. -/
theorem C89_located {n : Nat} {j : Job} {d : Disk} {D E : FileDescriptor} (hr : readProtoFile d.file j.search n j.inFile = .ok D)
    (hE : j.compiled n d = some E) {text r : Str} {F : Parse.File} (ht : d.file j.inFile = some text) (hF : Parse.readProto text = .ok F r)
    (hk : NamesKept F.desc) :
    Located E (baseOf F.desc.package j.inFile) := by
  obtain ⟨D', hc, rfl⟩ := compiled_compile hr hE
  obtain ⟨D0, imps, ms, es, hR, h1, h2, h3, h4, _⟩ := read_own hr
  obtain ⟨text', F', r', ht', hF', _, rfl⟩ := reads_parsed hR
  cases ht.symm.trans ht'
  cases hF.symm.trans hF'
  have hN := Parse.readProto_named hF
  exact located (F := { F.desc with module := _ }) (D := { D with owned := j.cfg.owned }) hN.messages hN.enums h1 h2 h3 h4 hc hk

/-! ## What paths mean -/

variable {D : FileDescriptor} {cfg : Config} {filename : Str} {services : Nat} {base : Path} {crate es : List Entry} {out file : Path}

/-- In every place of the file where types are named, the path of a message that the file declares denotes the struct of that
message, unless the first name of the path is hidden. -/
theorem C89_message_partial (h : fileEntries D cfg filename services = some es) (hc : Clean es) (hL : Located D base)
    (hI : Installed D base crate es out file) {idx : MessageIndex} {m : Message} (ho : Own D idx) (hm : D.getMessage idx = some m)
    {q : Path} (hq : Spot D q) (hu : Unhidden es (D.package ≠ []) q (messagePath D m)) :
    ∃ s, structDef D cfg m = some s ∧ Denotes crate (out ++ file ++ q) (messagePath D m) (structEntry D cfg m s) := by
  obtain ⟨es', h1, h2, _, _, _⟩ := own_inside h hc ho hm
  obtain ⟨s, hs, hmem⟩ := holds_struct h2
  obtain ⟨hi, hmod⟩ := hL.messages idx m ho hm
  refine ⟨s, hs, ?_⟩
  unfold messagePath at hu ⊢
  rw [hi] at hu ⊢
  exact denotes_own hI h hc hq hmod h1 hmem (by simp [structEntry, Entry.declares]) hu

/-- The same for enums of the file. -/
theorem C89_enum_partial (h : fileEntries D cfg filename services = some es) (hc : Clean es) (hL : Located D base)
    (hI : Installed D base crate es out file) {e : Enumerator} (he : e ∈ D.enums) (hi : e.imported = false)
    {q : Path} (hq : Spot D q) (hu : Unhidden es (D.package ≠ []) q (enumPath D e)) :
    ∃ x, enumEntry e = some x ∧ Denotes crate (out ++ file ++ q) (enumPath D e) x := by
  obtain ⟨x, hx, hex⟩ := (file_parts h).2.2 e he hi
  refine ⟨x, hex, ?_⟩
  obtain ⟨_, rfl⟩ := enumEntry_item hex
  unfold enumPath at hu ⊢
  rw [hi] at hu ⊢
  exact denotes_own (rel := []) hI h hc hq (by rw [hL.enums e he hi, List.append_nil]) rfl hx (by simp [Entry.declares]) hu

/-- The same for enums of messages. -/
theorem C89_nested_enum_partial (h : fileEntries D cfg filename services = some es) (hc : Clean es) (hL : Located D base)
    (hI : Installed D base crate es out file) {idx : MessageIndex} {m : Message} (ho : Own D idx) (hm : D.getMessage idx = some m)
    {e : Enumerator} (he : e ∈ m.enums) {q : Path} (hq : Spot D q) (hu : Unhidden es (D.package ≠ []) q (enumPath D e)) :
    ∃ x, enumEntry e = some x ∧ Denotes crate (out ++ file ++ q) (enumPath D e) x := by
  obtain ⟨ms, inn, hms, hinn, hin, _⟩ := inner_inside h hc ho hm (Or.inr (Or.inl (List.ne_nil_of_mem he)))
  obtain ⟨xs, ys, hxs, _, rfl⟩ := inner_parts hinn
  obtain ⟨x, hx, hex⟩ := mapM_all hxs e he
  obtain ⟨hi, hmod⟩ := hL.nested idx m ho hm e he
  refine ⟨x, hex, ?_⟩
  obtain ⟨_, rfl⟩ := enumEntry_item hex
  unfold enumPath at hu ⊢
  rw [hi] at hu ⊢
  exact denotes_own hI h hc hq hmod hin (by simp [hx]) (by simp [Entry.declares]) hu

/-- The same for oneofs. -/
theorem C89_oneof_partial (h : fileEntries D cfg filename services = some es) (hc : Clean es) (hL : Located D base)
    (hI : Installed D base crate es out file) {idx : MessageIndex} {m : Message} (ho : Own D idx) (hm : D.getMessage idx = some m)
    {o : OneOf} (hoo : o ∈ m.oneofs) {q : Path} (hq : Spot D q) (hu : Unhidden es (D.package ≠ []) q (oneofPath D o)) :
    ∃ x, oneofEntry D cfg o = some x ∧ Denotes crate (out ++ file ++ q) (oneofPath D o) x := by
  obtain ⟨ms, inn, hms, hinn, hin, _⟩ := inner_inside h hc ho hm (Or.inr (Or.inr (List.ne_nil_of_mem hoo)))
  obtain ⟨xs, ys, _, hys, rfl⟩ := inner_parts hinn
  obtain ⟨x, hx, hex⟩ := mapM_all hys o hoo
  obtain ⟨hi, hmod⟩ := hL.oneofs idx m ho hm o hoo
  refine ⟨x, hex, ?_⟩
  obtain ⟨_, rfl⟩ := oneofEntry_item hex
  unfold oneofPath at hu ⊢
  rw [hi] at hu ⊢
  exact denotes_own hI h hc hq hmod hin (List.mem_append_left _ (List.mem_append_right _ hx)) (List.mem_singleton.mpr rfl) hu

/-! ## What paths to imported types mean -/

theorem installed_length (hI : Installed D base crate es out file) : file.length = (splitDot D.package).length := by
  by_cases h : D.package = []
  · rw [(hI.noPackage h).2, h]; rfl
  · obtain ⟨rfl, h⟩ := hI.package h; exact h

theorem modulePath_imported (module : Str) : modulePath D module true = segments module := by
  unfold modulePath segments
  rw [Bool.not_true, Bool.and_false]
  rfl

section
variable {n : Nat} {j : Job} {d : Disk} {D E : FileDescriptor} (hr : readProtoFile d.file j.search n j.inFile = .ok D)
  (hE : j.compiled n d = some E) (hp : ∀ s, Imports d.file j.search j.inFile s → AllPackaged d.file j.search s)
  -- the generated file is in the crate
  (h : fileEntries E j.cfg filename services = some es) (hc : Clean es) (hI : Installed E base crate es out file)
  -- the imported files are, too
  (hl : ∀ s q, Imports d.file j.search j.inFile s → ImportsStar d.file j.search s q → ∃ cfg' E' es', Linked d crate out q cfg' E' es')

include hr hE hp h hc hI hl

/-- The path of an imported message, or of one that is nested in it, denotes the struct that was generated for it from the file that
declares it: a file `q` that is imported, directly or not. -/
theorem C89_imported_partial {i : Nat} {is : List Nat} {t m : Message} (ht : E.messages[i]? = some t) (hi : t.imported = true)
    (hm : E.getMessage (i :: is) = some m) {r : Path} (hq : Spot E r) (hu : Unhidden es True r (messagePath E m)) :
    ∃ s q cfg' E' es' k m' st, Imports d.file j.search j.inFile s ∧ ImportsStar d.file j.search s q ∧ Linked d crate out q cfg' E' es' ∧
      E'.getMessage (k :: is) = some m' ∧ Own E' (k :: is) ∧ m'.name = m.name ∧ structDef E' cfg' m' = some st ∧
      Denotes crate (out ++ file ++ r) (messagePath E m) (structEntry E' cfg' m' st) := by
  obtain ⟨s, q, D0, imps, k, y, hs, hstar, hR, hy, hsh⟩ := imported_source hr hE hp ht hi hm
  obtain ⟨cfg', E', es', hL⟩ := hl s q hs hstar
  obtain ⟨b, hloc, hin, _, _, hg, _⟩ := linked_source hL hR
  obtain ⟨m', hm', hsh'⟩ := hg _ _ hy
  have ho := linked_own hL hR hy hm'
  obtain ⟨sv, hes'⟩ := hL.entries
  obtain ⟨ei, h1, h2, _, _, _⟩ := own_inside hes' hL.clean ho hm'
  obtain ⟨st, hst, hmem⟩ := holds_struct h2
  obtain ⟨a1, a2, a3, _, _⟩ := shell_facts hsh
  obtain ⟨b1, b2, b3, _, _⟩ := shell_facts hsh'
  have c1 : y.setImported.name = y.name := by cases y; rfl
  have c2 : y.setImported.module = y.module := by cases y; rfl
  have c3 : y.setImported.imported = true := by cases y; rfl
  have hname : m'.name = m.name := by rw [a1, b1, c1]
  have hmod : segments m.module = b ++ home E' (k :: is) := by
    rw [a2, c2, ← b2]
    exact (hloc.messages _ _ ho hm').2
  have himp : m.imported = true := by rw [a3, c3]
  have hpath : messagePath E m = b ++ home E' (k :: is) ++ [m.name] := by
    unfold messagePath
    rw [himp, modulePath_imported, hmod]
  refine ⟨s, q, cfg', E', es', k, m', st, hs, hstar, hL, hm', ho, hname, hst, ?_⟩
  rw [hpath] at hu ⊢
  refine denotes_outside hI.inside h (installed_length hI) hc hq ?_ List.getLast?_concat trivial hu
  rw [List.dropLast_concat, ← List.append_assoc]
  exact declared_of (by rw [inside_append, hin]; exact h1) (hL.clean _ _ h1) hmem (by rw [← hname]; exact List.mem_singleton.mpr rfl)

/-- The same for enums of imported files. -/
theorem C89_imported_enum_partial {e : Enumerator} (he : e ∈ E.enums) (hi : e.imported = true) {r : Path} (hq : Spot E r)
    (hu : Unhidden es True r (enumPath E e)) :
    ∃ s q cfg' E' es' e' x, Imports d.file j.search j.inFile s ∧ ImportsStar d.file j.search s q ∧ Linked d crate out q cfg' E' es' ∧
      e' ∈ E'.enums ∧ e'.imported = false ∧ e'.name = e.name ∧ e'.fields = e.fields ∧ enumEntry e' = some x ∧
      Denotes crate (out ++ file ++ r) (enumPath E e) x := by
  obtain ⟨s, q, D0, imps, k, e0, hs, hstar, hR, he0, hsh⟩ := imported_enum_source hr hE hp he hi
  obtain ⟨cfg', E', es', hL⟩ := hl s q hs hstar
  obtain ⟨b, hloc, hin, _, himp, _, hg⟩ := linked_source hL hR
  obtain ⟨e', he', hsh'⟩ := hg _ _ he0
  obtain ⟨sv, hes'⟩ := hL.entries
  have hi' := congrArg Enumerator.imported hsh'
  have hi' : e'.imported = e0.imported := hi'
  rw [himp e0 (List.mem_of_getElem? he0)] at hi'
  obtain ⟨x, hx, hex⟩ := (file_parts hes').2.2 e' (List.mem_of_getElem? he') hi'
  have n1 := congrArg Enumerator.name hsh
  have n1 : e.name = sanitizeKeyword e0.name := n1
  have n2 := congrArg Enumerator.name hsh'
  have n2 : e'.name = sanitizeKeyword e0.name := n2
  have f1 := congrArg Enumerator.fields hsh
  have f2 := congrArg Enumerator.fields hsh'
  have m1 := congrArg Enumerator.module hsh
  have m1 : e.module = e0.module := m1
  have m2 := congrArg Enumerator.module hsh'
  have m2 : e'.module = e0.module := m2
  have hname : e'.name = e.name := n2.trans n1.symm
  have hmod : segments e.module = b := by
    rw [m1, ← m2]
    exact hloc.enums e' (List.mem_of_getElem? he') hi'
  have hpath : enumPath E e = b ++ [e.name] := by
    unfold enumPath
    rw [hi, modulePath_imported, hmod]
  refine ⟨s, q, cfg', E', es', e', x, hs, hstar, hL, List.mem_of_getElem? he', hi', hname, Eq.trans f2 f1.symm, hex, ?_⟩
  obtain ⟨_, rfl⟩ := enumEntry_item hex
  rw [hpath] at hu ⊢
  refine denotes_outside hI.inside h (installed_length hI) hc hq ?_ List.getLast?_concat trivial hu
  rw [List.dropLast_concat]
  exact declared_of hin (hL.clean [] es' rfl) hx (by rw [← hname]; exact List.mem_singleton.mpr rfl)

/-- The same for enums in messages of imported files. -/
theorem C89_imported_nested_enum_partial {i : Nat} {is : List Nat} {t m : Message} (ht : E.messages[i]? = some t) (hi : t.imported = true)
    (hm : E.getMessage (i :: is) = some m) {e : Enumerator} (he : e ∈ m.enums) {r : Path} (hq : Spot E r) (hu : Unhidden es True r (enumPath E e)) :
    ∃ s q cfg' E' es' k m' e' x, Imports d.file j.search j.inFile s ∧ ImportsStar d.file j.search s q ∧ Linked d crate out q cfg' E' es' ∧
      E'.getMessage (k :: is) = some m' ∧ Own E' (k :: is) ∧ m'.name = m.name ∧ e' ∈ m'.enums ∧ e'.name = e.name ∧ e'.fields = e.fields ∧
      enumEntry e' = some x ∧ Denotes crate (out ++ file ++ r) (enumPath E e) x := by
  obtain ⟨s, q, D0, imps, k, y, hs, hstar, hR, hy, hsh⟩ := imported_source hr hE hp ht hi hm
  obtain ⟨cfg', E', es', hL⟩ := hl s q hs hstar
  obtain ⟨b, hloc, hin, _, _, hg, _⟩ := linked_source hL hR
  obtain ⟨m', hm', hsh'⟩ := hg _ _ hy
  have ho := linked_own hL hR hy hm'
  obtain ⟨sv, hes'⟩ := hL.entries
  obtain ⟨a1, _⟩ := shell_facts hsh
  obtain ⟨b1, _⟩ := shell_facts hsh'
  have c1 : y.setImported.name = y.name := by cases y; rfl
  obtain ⟨l, hel⟩ := List.mem_iff_getElem?.mp he
  have hk := shell_enums hsh (k := l)
  rw [hel] at hk
  obtain ⟨e1, he1, hc1⟩ := Option.map_eq_some_iff.mp hk.symm
  have hyl : ∃ e0, y.enums[l]? = some e0 ∧ e1 = { e0 with imported := true } := by
    cases y
    simp only [Message.setImported, List.getElem?_map] at he1
    obtain ⟨e0, h0, rfl⟩ := Option.map_eq_some_iff.mp he1
    exact ⟨e0, h0, rfl⟩
  obtain ⟨e0, he0, rfl⟩ := hyl
  have hk' := shell_enums hsh' (k := l)
  rw [he0] at hk'
  obtain ⟨e', he', hc'⟩ := Option.map_eq_some_iff.mp hk'
  have hmem := List.mem_of_getElem? he'
  obtain ⟨ms, inn, hms, hinn, hini, hcl⟩ := inner_inside hes' hL.clean ho hm' (Or.inr (Or.inl (List.ne_nil_of_mem hmem)))
  obtain ⟨xs, ys, hxs, _, rfl⟩ := inner_parts hinn
  obtain ⟨x, hx, hex⟩ := mapM_all hxs e' hmem
  have n1 := congrArg Enumerator.name hc1
  have n1 : sanitizeKeyword e0.name = e.name := n1
  have n2 := congrArg Enumerator.name hc'
  have n2 : e'.name = sanitizeKeyword e0.name := n2
  have f1 := congrArg Enumerator.fields hc1
  have f2 := congrArg Enumerator.fields hc'
  have m1 := congrArg Enumerator.module hc1
  have m1 : e0.module = e.module := m1
  have m2 := congrArg Enumerator.module hc'
  have m2 : e'.module = e0.module := m2
  have i1 := congrArg Enumerator.imported hc1
  have i1 : true = e.imported := i1
  have hname : e'.name = e.name := n2.trans n1
  have hmod : segments e.module = b ++ inner E' (k :: is) := by
    rw [← m1, ← m2]
    exact (hloc.nested _ _ ho hm' e' hmem).2
  have hpath : enumPath E e = b ++ inner E' (k :: is) ++ [e.name] := by
    unfold enumPath
    rw [← i1, modulePath_imported, hmod]
  refine ⟨s, q, cfg', E', es', k, m', e', x, hs, hstar, hL, hm', ho, by rw [a1, b1, c1], hmem, hname, Eq.trans f2 f1, hex, ?_⟩
  obtain ⟨_, rfl⟩ := enumEntry_item hex
  rw [hpath] at hu ⊢
  refine denotes_outside hI.inside h (installed_length hI) hc hq ?_ List.getLast?_concat trivial hu
  rw [List.dropLast_concat, ← List.append_assoc]
  exact declared_of (by rw [inside_append, hin]; exact hini) (hcl [] _ rfl) (by simp [hx]) (by rw [← hname]; exact List.mem_singleton.mpr rfl)

end

end QP.Rust
