import Verif.Props.Legal
set_option linter.unusedVariables false
/-!
# `MessageInfo::PATH` (C104)
-/

namespace QP.Rust
open QP.Pbrs RunExample

variable {D : FileDescriptor} {cfg : Config} {filename : Str} {services : Nat} {es : List Entry}

/-! ## The entries -/

theorem holds_info {es : List Entry} {m : Message} (hg : cfg.genInfo = true) (h : Holds D cfg es m) :
    ∃ s, structDef D cfg m = some s ∧ structEntry D cfg m s ∈ es ∧
      Entry.text (infoText m.name (lifetime D cfg m) (m.module ++ '.' :: m.name) ++ Doc.nl) ∈ es ∧
      (D.owned = true → hasLifetime D cfg [] m.index = some true → Entry.text (ownedInfoText m.name (m.module ++ '.' :: m.name)) ∈ es) := by
  obtain ⟨xs, hx, hs⟩ := h
  obtain ⟨name, fields, oneofs, nums, names, imported, pkg, messages, enums, module, index⟩ := m
  rw [messageEntries] at hx
  obtain ⟨own, ho, hx⟩ := Option.bind_eq_some_iff.mp hx
  have hsub : ∀ e ∈ own, e ∈ es := by
    intro e he
    apply hs
    split at hx
    · cases hx; exact he
    · obtain ⟨ms, _, hx⟩ := Option.bind_eq_some_iff.mp hx
      obtain ⟨inn, _, rfl⟩ := Option.map_eq_some_iff.mp hx
      exact List.mem_append_left _ he
  unfold ownEntries at ho
  obtain ⟨s, h1, ho⟩ := Option.bind_eq_some_iff.mp ho
  obtain ⟨cs, _, ho⟩ := Option.bind_eq_some_iff.mp ho
  obtain ⟨gs, _, rfl⟩ := Option.map_eq_some_iff.mp ho
  refine ⟨s, h1, hsub _ (by simp), hsub _ ?_, fun hO hl => hsub _ ?_⟩
  · refine List.mem_append_left _ (List.mem_append_right _ ?_)
    unfold implEntries
    rw [hg]
    exact List.mem_append_right _ (List.mem_singleton.mpr rfl)
  · refine List.mem_append_right _ ?_
    unfold ownedEntries
    rw [hO, hl, hg]
    exact List.mem_append_right _ (List.mem_singleton.mpr rfl)

/-! ## Names of siblings -/

theorem names_append (a b : List Entry) : names (a ++ b) = names a ++ names b := by simp [names]

theorem name_sub {m : Message} {xs : List Entry} (h : messageEntries D cfg m = some xs) : [m.name].Sublist (names xs) := by
  have : Holds D cfg xs m := ⟨xs, h, fun _ h => h⟩
  obtain ⟨s, _, hm⟩ := holds_struct this
  exact List.singleton_sublist.mpr (mem_names hm (List.mem_singleton.mpr rfl))

theorem siblings_sub : ∀ {ms : List Message} {xs : List Entry}, messagesEntries D cfg ms = some xs → (ms.map (·.name)).Sublist (names xs)
  | [], xs, h => List.nil_sublist _
  | m :: ms, xs, h => by
    rw [messagesEntries] at h
    obtain ⟨a, ha, h⟩ := Option.bind_eq_some_iff.mp h
    obtain ⟨b, hb, rfl⟩ := Option.map_eq_some_iff.mp h
    rw [names_append]
    exact (name_sub ha).append (siblings_sub hb)

theorem filter_inj {α β : Type} {p : α → Bool} {f : α → β} : ∀ {l : List α}, ((l.filter p).map f).Nodup → ∀ {i j : Nat} {a b : α}, l[i]? = some a → l[j]? = some b →
    p a = true → p b = true → f a = f b → i = j
  | [], _, i, j, a, b, hi, _, _, _, _ => by cases hi
  | c :: l, h, i, j, a, b, hi, hj, pa, pb, hf => by
    have h' : ((l.filter p).map f).Nodup := by
      rw [List.filter_cons] at h
      split at h
      · exact (List.nodup_cons.mp h).2
      · exact h
    cases i with
    | zero =>
      cases hi
      cases j with
      | zero => rfl
      | succ j =>
        rw [List.filter_cons, if_pos pa] at h
        exact ((List.nodup_cons.mp h).1 (List.mem_map.mpr ⟨b, List.mem_filter.mpr ⟨List.mem_of_getElem? hj, pb⟩, hf.symm⟩)).elim
    | succ i =>
      cases j with
      | zero =>
        cases hj
        rw [List.filter_cons, if_pos pb] at h
        exact ((List.nodup_cons.mp h).1 (List.mem_map.mpr ⟨a, List.mem_filter.mpr ⟨List.mem_of_getElem? hi, pa⟩, hf⟩)).elim
      | succ j => rw [filter_inj h' hi hj pa pb hf]

theorem map_inj {ms : List Message} (h : (ms.map (·.name)).Nodup) {i j : Nat} {a b : Message} (hi : ms[i]? = some a) (hj : ms[j]? = some b) (hn : a.name = b.name) :
    i = j :=
  filter_inj (p := fun _ => true) (by rwa [List.filter_true]) hi hj rfl rfl hn

/-- Below a message, the names on the way determine the place. -/
theorem below_inj : ∀ {js js' : List Nat} {m x x' : Message}, (∀ ks y, m.descend ks = some y → (y.messages.map (·.name)).Nodup) → m.descend js = some x →
    m.descend js' = some x' → namesAlong m.messages js = namesAlong m.messages js' → js = js'
  | [], [], _, _, _, _, _, _, _ => rfl
  | [], k :: ks, m, x, x', _, _, h', hn => by
    simp only [Message.descend, Option.bind_eq_some_iff] at h'
    obtain ⟨y, hy, _⟩ := h'
    rw [namesAlong, namesAlong, hy] at hn
    cases hn
  | k :: ks, [], m, x, x', _, h, _, hn => by
    simp only [Message.descend, Option.bind_eq_some_iff] at h
    obtain ⟨y, hy, _⟩ := h
    have e : namesAlong m.messages (k :: ks) = y.name :: namesAlong y.messages ks := by rw [namesAlong, hy]
    rw [e, namesAlong] at hn
    cases hn
  | k :: ks, k' :: ks', m, x, x', hd, h, h', hn => by
    simp only [Message.descend, Option.bind_eq_some_iff] at h h'
    obtain ⟨y, hy, h⟩ := h
    obtain ⟨y', hy', h'⟩ := h'
    rw [namesAlong, namesAlong, hy, hy'] at hn
    simp only [List.cons.injEq] at hn
    obtain rfl := map_inj (hd [] m rfl) hy hy' hn.1
    cases hy.symm.trans hy'
    rw [below_inj (fun ls z hz => hd (k :: ls) z (by simp only [Message.descend, hy]; exact hz)) h h' hn.2]

/-- In a file in which no module declares a name twice, the names on the way determine the message. -/
theorem along_inj (h : fileEntries D cfg filename services = some es) (hc : Clean es) {idx idx' : MessageIndex} {m m' : Message} (ho : Own D idx) (ho' : Own D idx')
    (hm : D.getMessage idx = some m) (hm' : D.getMessage idx' = some m') (hn : namesAlong D.messages idx = namesAlong D.messages idx') : idx = idx' := by
  have sib : ∀ {idx m}, Own D idx → D.getMessage idx = some m → (m.messages.map (·.name)).Nodup := by
    intro idx m ho hm
    cases hms : m.messages with
    | nil => exact List.nodup_nil
    | cons a b =>
      obtain ⟨ms, inn, h1, h2, _, h4⟩ := inner_inside h hc ho hm (Or.inl (by rw [hms]; simp))
      obtain ⟨es, os, _, _, rfl⟩ := inner_parts h2
      rw [← hms]
      refine List.Sublist.nodup (siblings_sub h1) (List.Sublist.nodup ?_ (h4 [] _ rfl))
      simp only [names_append, List.append_assoc]
      exact ((List.sublist_append_left _ _).trans (List.sublist_append_right _ _)).trans (List.sublist_append_right _ _)
  obtain ⟨i, is, t, rfl, ht, hi⟩ := ho
  obtain ⟨i', is', t', rfl, ht', hi'⟩ := ho'
  rw [namesAlong, namesAlong, ht, ht'] at hn
  simp only [List.cons.injEq] at hn
  have htop : ((D.messages.filter fun m => !m.imported).map (·.name)).Nodup := by
    have h0 := hc [] es rfl
    unfold fileEntries at h
    obtain ⟨en, he, h⟩ := Option.bind_eq_some_iff.mp h
    obtain ⟨ms, hms, rfl⟩ := Option.map_eq_some_iff.mp h
    refine List.Sublist.nodup (siblings_sub hms) (List.Sublist.nodup ?_ h0)
    simp only [names_append, List.append_assoc]
    exact (((((List.sublist_append_left _ _).trans (List.sublist_append_right _ _)).trans (List.sublist_append_right _ _)).trans (List.sublist_append_right _ _)).trans
      (List.sublist_append_right _ _)).trans (List.sublist_append_right _ _)
  obtain rfl := filter_inj htop ht ht' (by rw [hi]; rfl) (by rw [hi']; rfl) hn.1
  cases ht.symm.trans ht'
  rw [FileDescriptor.getMessage, ht] at hm hm'
  rw [below_inj (fun ks y hy => sib (idx := i :: ks) ⟨i, ks, t, rfl, ht, hi⟩ (by rw [FileDescriptor.getMessage, ht]; exact hy)) hm hm' hn.2]

theorem segments_dotted {q x : Str} (h : Grammar.Word x) : segments (q ++ '.' :: x) = segments q ++ [x] := by
  unfold segments
  rw [splitDot_dotted, List.filter_append, splitDot_of_no_dot (word_nodot h)]
  obtain ⟨c, cs, rfl, _⟩ := h
  rfl

theorem word_sanitized {x : Str} (h : Grammar.Word x) : Grammar.Word (sanitizeKeyword x) := by
  rw [sanitize_word h]
  split
  · exact Word.more h (by unfold Grammar.WordChar; decide)
  · exact h

theorem compiled_word {n : Nat} {j : Job} {d : Disk} {D E : FileDescriptor} (hr : readProtoFile d.file j.search n j.inFile = .ok D) (hE : j.compiled n d = some E)
    {idx : MessageIndex} {m : Message} (hm : E.getMessage idx = some m) : Grammar.Word m.name := by
  obtain ⟨D', hc, rfl⟩ := compiled_compile hr hE
  rw [printed_get] at hm
  obtain ⟨y, hy, he⟩ := compile_nameIn hc (x := m.name) (Or.inl ⟨idx, m, hm, Or.inl rfl⟩)
  rw [he]
  refine word_sanitized (read_nameIn hr ?_)
  rcases hy with ⟨i, m, hm, hx⟩ | ⟨e, he, hx⟩
  · exact Or.inl ⟨i, m, (by cases i with
      | nil => cases hm
      | cons a b => exact hm), hx⟩
  · exact Or.inr ⟨e, he, hx⟩

theorem home_names {idx idx' : MessageIndex} {m m' : Message} (hm : D.getMessage idx = some m) (hm' : D.getMessage idx' = some m')
    (h : home D idx ++ [m.name] = home D idx' ++ [m'.name]) : namesAlong D.messages idx = namesAlong D.messages idx' := by
  have key : ∀ {idx m}, D.getMessage idx = some m → ∃ l, namesAlong D.messages idx = l ++ [m.name] := by
    intro idx m hm
    cases idx with
    | nil => cases hm
    | cons i is =>
      obtain ⟨h1, h2⟩ := namesAlong_get is D.messages i m hm
      obtain ⟨y, _, hy, _, he⟩ := h2 is.length (Nat.le_refl _)
      rw [he rfl] at hy
      refine ⟨(namesAlong D.messages (i :: is)).dropLast, ?_⟩
      have hne : namesAlong D.messages (i :: is) ≠ [] := by intro h; rw [h] at h1; cases h1
      have : (namesAlong D.messages (i :: is)).getLast? = some m.name := by rw [List.getLast?_eq_getElem?, h1]; exact hy
      obtain ⟨l, hl⟩ := List.getLast?_eq_some_iff.mp this
      rw [hl]; simp
  obtain ⟨l, hl⟩ := key hm
  obtain ⟨l', hl'⟩ := key hm'
  obtain ⟨h1, h2⟩ := List.append_inj' h rfl
  unfold home at h1
  rw [hl, hl', List.dropLast_concat, List.dropLast_concat] at h1
  have : l = l' := (List.map_inj_right (fun a b h => List.append_cancel_left h)).mp h1
  rw [hl, hl', this, (List.cons.inj h2).1]

/-! ## The property -/

section
variable {junk : Str} {n : Nat} {j : Job} {d d' : Disk} (hn : j.noOutput = false)
    (h : writeProto junk n j d = (.ok (), d')) (hr : readProtoFile d.file j.search n j.inFile = .ok D)
    (h3 : ∀ text, d.file j.inFile = some text → OneSyntax text)
    {text r : Str} {F : Parse.File} (ht : d.file j.inFile = some text) (hF : Parse.readProto text = .ok F r) (hk : NamesKept F.desc)
include hn h hr h3 ht hF hk

/-- C104: if no message in which something is declared has a name that is changed, then with `--gen-info` every message of the file has an `impl MessageInfo`,
beside its struct; `PATH` is the module of the file, followed by the modules in it to the struct, and its name. The owned wrapper, if there is one, has the
same `PATH`; and different messages have different ones. -/
theorem C104_path_partial (hg : j.cfg.genInfo = true) :
    ∃ p E es, j.out n d = some p ∧ j.compiled n d = some E ∧ d'.file p = some (Entry.docs es).str ∧
      fileEntries E j.cfg (splitSlash j.inFile).2 (servicesOf ((d.file j.inFile).getD [])) = some es ∧
      (Clean es → ∃ PATH : MessageIndex → Str,
        (∀ idx m, Own E idx → E.getMessage idx = some m → ∃ es' s, inside es (home E idx) = some es' ∧ structDef E j.cfg m = some s ∧
          structEntry E j.cfg m s ∈ es' ∧ Entry.text (infoText m.name (lifetime E j.cfg m) (PATH idx) ++ Doc.nl) ∈ es' ∧
          segments (PATH idx) = baseOf F.desc.package j.inFile ++ home E idx ++ [m.name] ∧
          (E.owned = true → hasLifetime E j.cfg [] m.index = some true → Entry.text (ownedInfoText m.name (PATH idx)) ∈ es')) ∧
        ∀ idx idx' m m', Own E idx → Own E idx' → E.getMessage idx = some m → E.getMessage idx' = some m' → PATH idx = PATH idx' → idx = idx') := by
  obtain ⟨p, E, es, hp, hE, hes, htx⟩ := C88_layout hn h h3
  refine ⟨p, E, es, hp, hE, htx, hes, fun hc => ?_⟩
  have hL := C89_located hr hE ht hF hk
  let PATH : MessageIndex → Str := fun idx => match E.getMessage idx with | some m => m.module ++ '.' :: m.name | none => []
  have hP : ∀ {idx m}, E.getMessage idx = some m → PATH idx = m.module ++ '.' :: m.name := by intro idx m hm; simp only [PATH, hm]
  have hS : ∀ {idx m}, Own E idx → E.getMessage idx = some m → segments (PATH idx) = baseOf F.desc.package j.inFile ++ home E idx ++ [m.name] := by
    intro idx m ho hm
    rw [hP hm, segments_dotted (compiled_word hr hE hm), (hL.messages idx m ho hm).2]
  refine ⟨PATH, fun idx m ho hm => ?_, fun idx idx' m m' ho ho' hm hm' he => ?_⟩
  · obtain ⟨es', h1, h2, _, _, _⟩ := own_inside hes hc ho hm
    obtain ⟨s, k1, k2, k3, k4⟩ := holds_info hg h2
    exact ⟨es', s, h1, k1, k2, (hP hm) ▸ k3, hS ho hm, fun a b => (hP hm) ▸ k4 a b⟩
  · have := congrArg segments he
    rw [hS ho hm, hS ho' hm', List.append_assoc, List.append_assoc] at this
    exact along_inj hes hc ho ho' hm hm' (home_names hm hm' (List.append_cancel_left this))

end

/-! ## An example -/

def infoDisk : Disk := disk [(c! "x.proto", c! "package p.q; message Outer { message Inner { optional string a = 1; } optional Inner i = 1; } message Other { }")] []

def infoJob : Job := { inFile := c! "x.proto", outFile := c! "x.rs", cfg := { genInfo := true, owned := true } }

/-- The hypotheses hold, and the paths are what one expects. -/
theorem C104_example : ∃ d' D E es p F r text, writeProto [] 1 infoJob infoDisk = (.ok (), d') ∧ readProtoFile infoDisk.file infoJob.search 1 infoJob.inFile = .ok D ∧
    NoNestedMaps D ∧ infoDisk.file infoJob.inFile = some text ∧ Parse.readProto text = .ok F r ∧ NamesKept F.desc ∧ infoJob.compiled 1 infoDisk = some E ∧
    infoJob.out 1 infoDisk = some p ∧ d'.file p = some (Entry.docs es).str ∧ Clean es ∧
    ∃ PATH : MessageIndex → Str, segments (PATH [0]) = [c! "p", c! "q", c! "Outer"] ∧ segments (PATH [0, 0]) = [c! "p", c! "q", c! "mod_Outer", c! "Inner"] ∧
      segments (PATH [1]) = [c! "p", c! "q", c! "Other"] ∧
      ∃ es', inside es [c! "mod_Outer"] = some es' ∧ Entry.text (infoText (c! "Inner") true (PATH [0, 0]) ++ Doc.nl) ∈ es' ∧
        Entry.text (ownedInfoText (c! "Inner") (PATH [0, 0])) ∈ es' := by
  have h : (match writeProto [] 1 infoJob infoDisk, readProtoFile infoDisk.file infoJob.search 1 infoJob.inFile, infoJob.compiled 1 infoDisk,
      Parse.readProto ((infoDisk.file infoJob.inFile).getD []) with
    | (.ok (), _), .ok D, some E, .ok F r =>
      match E.getMessage [0], E.getMessage [0, 0], E.getMessage [1], fileEntries E infoJob.cfg (splitSlash infoJob.inFile).2 (servicesOf ((infoDisk.file infoJob.inFile).getD [])) with
      | some m0, some m1, some m2, some es =>
        ((Message.preorderAll [] 0 D.messages).all fun p => p.2.allFields.all fun f => f.typ.flat) &&
        ((Message.preorderAll [] 0 E.messages).all fun p => p.2.fields.all fun f => decide (f.frequency ≠ .p3optional)) &&
        ((Message.preorderAll [] 0 F.desc.messages).all fun p => decide (sanitizeKeyword p.2.name = p.2.name)) &&
        decide (names es).Nodup && Entry.cleanAllB es && (E.messages.all fun m => !m.imported) && decide (m0.name = c! "Outer") && decide (m1.name = c! "Inner") &&
        decide (m2.name = c! "Other") && decide (home E [0] = []) && decide (home E [0, 0] = [c! "mod_Outer"]) && decide (home E [1] = []) &&
        decide (baseOf F.desc.package infoJob.inFile = [c! "p", c! "q"]) && E.owned && decide (hasLifetime E infoJob.cfg [] m1.index = some true) &&
        lifetime E infoJob.cfg m1
      | _, _, _, _ => false
    | _, _, _, _ => false) = true := by decide +kernel
  split at h
  · rename_i d' D E F r hw hr hE hF
    split at h
    · rename_i m0 m1 m2 es e0 e1 e2 hes
      simp only [Bool.and_eq_true, decide_eq_true_eq] at h
      obtain ⟨⟨⟨⟨⟨⟨⟨⟨⟨⟨⟨⟨⟨⟨⟨h1, h2⟩, hkk⟩, h4⟩, h5⟩, h6⟩, n0⟩, n1⟩, n2⟩, a0⟩, a1⟩, a2⟩, hb⟩, hO⟩, hl⟩, hll⟩ := h
      have hf : NoNestedMaps D := fun i m hm f hf => List.all_eq_true.mp (List.all_eq_true.mp h1 _ ((mem_preorder_file D _ _).mpr hm)) f hf
      have hk : NamesKept F.desc := kept_of hkk
      have hc : Clean es := clean_of h4 h5
      have own : ∀ i is m, E.getMessage (i :: is) = some m → Own E (i :: is) := by
        intro i is m hm
        rw [FileDescriptor.getMessage] at hm
        obtain ⟨t, ht, _⟩ := Option.bind_eq_some_iff.mp hm
        exact ⟨i, is, t, rfl, ht, by simpa using List.all_eq_true.mp h6 t (List.mem_of_getElem? ht)⟩
      have ht : infoDisk.file infoJob.inFile = some ((infoDisk.file infoJob.inFile).getD []) := by decide +kernel
      obtain ⟨p, E', es', g1, g2, g3, g4, g5⟩ := C104_path_partial (j := infoJob) rfl hw hr (Parse.oneSyntax_file (by decide +kernel)) ht hF hk rfl
      cases hE.symm.trans g2
      cases hes.symm.trans g4
      obtain ⟨PATH, P1, P2⟩ := g5 hc
      obtain ⟨_, _, _, _, _, _, s0, _⟩ := P1 _ _ (own _ _ _ e0) e0
      obtain ⟨es1, _, i1, _, _, t1, s1, w1⟩ := P1 _ _ (own _ _ _ e1) e1
      obtain ⟨_, _, _, _, _, _, s2, _⟩ := P1 _ _ (own _ _ _ e2) e2
      rw [hb, a0, n0] at s0
      rw [hb, a1, n1] at s1
      rw [hb, a2, n2] at s2
      rw [a1] at i1
      rw [n1, hll] at t1
      have w1 := w1 hO hl
      rw [n1] at w1
      exact ⟨d', D, E, es, p, F, r, _, hw, hr, hf, ht, hF, hk, hE, g1, g3, hc, PATH, s0, s1, s2, es1, i1, t1, w1⟩
    · cases h
  · cases h

/-! ## Paths that are wrong -/

/-- A message in a message whose name is changed: there is no module of the name in its path. -/
theorem C104_refuted_nested : ∃ (d : Disk) (j : Job) (t : Str), (writeProto [] 1 j d).1.isOk = true ∧
    d.file j.inFile = some (c! "message type { message Inner { } }") ∧
    j = { inFile := c! "x.proto", outFile := c! "x.rs", cfg := { genInfo := true } } ∧
    (writeProto [] 1 j d).2.file (c! "x.rs") = some t ∧ c! "pub mod mod_type_pb {" <:+: t ∧ c! "impl MessageInfo for Inner {\n    const PATH : &'static str = \"x.mod_type.Inner\";" <:+: t := by
  refine ⟨(disk [(c! "x.proto", c! "message type { message Inner { } }")] []), { inFile := c! "x.proto", outFile := c! "x.rs", cfg := { genInfo := true } },
    ((writeProto [] 1 { inFile := c! "x.proto", outFile := c! "x.rs", cfg := { genInfo := true } } (disk [(c! "x.proto", c! "message type { message Inner { } }")] [])).2.file (c! "x.rs")).getD [],
    by decide +kernel, by decide +kernel, rfl, by decide +kernel, by decide +kernel, by decide +kernel⟩

/-- A package whose name is changed: the file is `type_pb.rs`, so the module is `type_pb`. -/
theorem C104_refuted_package : ∃ (d : Disk) (j : Job) (t : Str), (writeProto [] 1 j d).1.isOk = true ∧
    d.file j.inFile = some (c! "package type; message M { }") ∧
    j = { inFile := c! "x.proto", outFile := c! "x.rs", cfg := { genInfo := true } } ∧
    (writeProto [] 1 j d).2.file (c! "type_pb.rs") = some t ∧ c! "impl MessageInfo for M {\n    const PATH : &'static str = \"type.M\";" <:+: t := by
  refine ⟨(disk [(c! "x.proto", c! "package type; message M { }")] []), { inFile := c! "x.proto", outFile := c! "x.rs", cfg := { genInfo := true } },
    ((writeProto [] 1 { inFile := c! "x.proto", outFile := c! "x.rs", cfg := { genInfo := true } } (disk [(c! "x.proto", c! "package type; message M { }")] [])).2.file (c! "type_pb.rs")).getD [],
    by decide +kernel, by decide +kernel, rfl, by decide +kernel, by decide +kernel⟩

/-- Two messages with the same name are accepted, and have the same path. -/
theorem C104_refuted_same : ∃ (d : Disk) (j : Job) (t : Str), (writeProto [] 1 j d).1.isOk = true ∧
    d.file j.inFile = some (c! "message M { } message M { optional bool b = 1; }") ∧
    j = { inFile := c! "x.proto", outFile := c! "x.rs", cfg := { genInfo := true } } ∧
    (writeProto [] 1 j d).2.file (c! "x.rs") = some t ∧ c! "pub struct M { }" <:+: t ∧ c! "pub struct M {\n    pub b: Option<bool>," <:+: t ∧ c! "const PATH : &'static str = \"x.M\";" <:+: t := by
  refine ⟨(disk [(c! "x.proto", c! "message M { } message M { optional bool b = 1; }")] []), { inFile := c! "x.proto", outFile := c! "x.rs", cfg := { genInfo := true } },
    ((writeProto [] 1 { inFile := c! "x.proto", outFile := c! "x.rs", cfg := { genInfo := true } } (disk [(c! "x.proto", c! "message M { } message M { optional bool b = 1; }")] [])).2.file (c! "x.rs")).getD [],
    by decide +kernel, by decide +kernel, rfl, by decide +kernel, by decide +kernel, by decide +kernel, by decide +kernel⟩

end QP.Rust
