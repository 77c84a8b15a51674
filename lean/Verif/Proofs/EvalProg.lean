import Verif.Proofs.EvalRead
set_option linter.unusedVariables false
set_option linter.unusedSimpArgs false
/-!
The generated program does what `Verif/Model/Gen.lean` says.
-/

namespace QP.Rust
open QP.Pbrs QP.Gen QP.BytesReader

/-- A `PackedFixed` field is declared as one (it is not, with `--dont_use_cow`). -/
def PackedOk (C : Ctx) : Prop :=
  ∀ idx m, C.D.getMessage idx = some m → ∀ f ∈ m.fields, f.visible C.cfg = true → isPackedFixed f = true → C.cfg.dontUseCow = false

section
variable {C : Ctx} {P : Prog} {dflt : Path → RVal}

theorem agree_world (G : Generates C P dflt) {fuel : Nat} {read : Path → Bytes → RM RVal} {write : Path → MessageWrite RVal} {self : Path}
    {sub : MessageIndex → RVal → Prop} {rd : MessageIndex → Bytes → RM RVal} {wr : MessageIndex → MessageWrite RVal}
    (hread : ∀ idx m, C.D.getMessage idx = some m → ∀ b, read (messagePath C.D m) b = rd idx b)
    (hsize : ∀ idx m, C.D.getMessage idx = some m → ∀ v, sub idx v → (write (messagePath C.D m)).get_size v = (wr idx).get_size v)
    (hwrite : ∀ idx m, C.D.getMessage idx = some m → ∀ v, sub idx v → ∀ (σ : Type) [WriterBackend σ],
      (write (messagePath C.D m)).write_message v σ = (wr idx).write_message v σ) :
    Agree C (P.world C.T dflt fuel read write self) sub rd wr where
  T := rfl
  structs := by
    intro idx m hm
    obtain ⟨s, hs, hP⟩ := G.structs idx m hm
    obtain ⟨fs, hfs, hs⟩ := Option.bind_eq_some_iff.mp hs
    obtain ⟨size, hsize, hs⟩ := Option.bind_eq_some_iff.mp hs
    obtain ⟨wb, hwb, hs⟩ := Option.bind_eq_some_iff.mp hs
    obtain ⟨rb, hrb, hs⟩ := Option.bind_eq_some_iff.mp hs
    obtain ⟨db, hdb, rfl⟩ := Option.map_eq_some_iff.mp hs
    refine ⟨fs, hfs, ?_, G.names idx m hm fs hfs⟩
    show (P.structs _).map _ = _
    rw [hP]
    rfl
  oneofs := by
    intro idx m hm o ho
    obtain ⟨vs, hvs, hP, hn⟩ := G.oneofs idx m hm o ho
    refine ⟨vs, hvs, ?_, hn⟩
    show (P.oneofs _).map _ = _
    rw [hP]
    rfl
  enums := by
    intro e en hen
    show P.enums _ = _
    rw [G.enums e en hen]
    unfold Ctx.enumNums
    rw [hen]
  default := G.default
  enumDefault := G.enumDefault
  first := G.first
  const := G.const
  constTyped := G.constTyped
  read := hread
  size := hsize
  write := hwrite

/-- What the generated functions of a message are. -/
theorem generated_def (G : Generates C P dflt) {idx : MessageIndex} {m : Message} (hm : C.D.getMessage idx = some m) :
    ∃ fs size write read db, structFields C.D C.cfg m = some fs ∧ sizeBody C.D C.cfg m = some size ∧ writeBody C.D C.cfg m = some write ∧
      readBody C.D C.cfg m = some read ∧ defaultFields C.D C.cfg m = some db ∧
      P.structs (messagePath C.D m) = some ⟨fs, if m.mustGenerateImplDefault C.D C.cfg then some db else none,
        if m.isUnit then none else some size, if m.isUnit then none else some write, if m.isUnit then unitReadBody else read⟩ := by
  obtain ⟨s, hs, hP⟩ := G.structs idx m hm
  obtain ⟨fs, hfs, hs⟩ := Option.bind_eq_some_iff.mp hs
  obtain ⟨size, hsize, hs⟩ := Option.bind_eq_some_iff.mp hs
  obtain ⟨wb, hwb, hs⟩ := Option.bind_eq_some_iff.mp hs
  obtain ⟨rb, hrb, hs⟩ := Option.bind_eq_some_iff.mp hs
  obtain ⟨db, hdb, rfl⟩ := Option.map_eq_some_iff.mp hs
  exact ⟨fs, size, wb, rb, db, hfs, hsize, hwb, hrb, hdb, hP⟩

theorem mapM_mem_some {α β : Type} {t : α → Option β} {l : List α} {bs : List β} (h : l.mapM t = some bs) {a : α} (ha : a ∈ l) :
    ∃ b, t a = some b := by
  obtain ⟨j, hj⟩ := List.mem_iff_getElem?.mp ha
  obtain ⟨b, _, hb⟩ := mapM_get h hj
  exact ⟨b, hb⟩

/-- What is known about the fields and oneofs of a message. -/
theorem sources_in (hS : SchemaOk C) (hK : PackedOk C) {idx : MessageIndex} {m : Message} (hm : C.D.getMessage idx = some m)
    {b : Body} (hb : readBody C.D C.cfg m = some b) : ∀ s ∈ sources C.cfg m, SourceIn C s := by
  obtain ⟨ts, hts, hb⟩ := Option.bind_eq_some_iff.mp hb
  obtain ⟨os, hos, _⟩ := Option.map_eq_some_iff.mp hb
  intro s hs
  rcases List.mem_append.mp hs with h | h
  · obtain ⟨f, hf, rfl⟩ := List.mem_map.mp h
    have hfm := List.mem_filter.mp hf
    refine ⟨(hS idx m hm).members (.field f) ?_, ?_, hK idx m hm f hfm.1 hfm.2, idx, m, hm, hfm.1⟩
    · rw [members_sources]
      exact List.mem_map.mpr ⟨.inl f, hs, rfl⟩
    · intro hbx
      obtain ⟨t, ht⟩ := mapM_mem_some hts hf
      obtain ⟨body, hbody, _⟩ := Option.map_eq_some_iff.mp ht
      unfold matchTree at hbody
      rw [if_pos hbx] at hbody
      split at hbody
      · rename_i i hi; exact ⟨i, hi⟩
      · cases hbody
  · obtain ⟨o, ho, rfl⟩ := List.mem_map.mp h
    refine ⟨?_, idx, m, hm, ho⟩
    intro f hf hbx
    obtain ⟨ts', hts'⟩ := mapM_mem_some hos ho
    obtain ⟨t, ht⟩ := mapM_mem_some hts' hf
    unfold oneofMatchTree at ht
    simp only [hbx, if_true] at ht
    split at ht
    · rename_i i hi; exact ⟨i, hi⟩
    · cases ht

theorem unit_members {cfg : Config} {m : Message} (h : m.isUnit = true) : members cfg m = [] := by
  obtain ⟨a, fields, oneofs, _, _, _, _, ms, _, _, _⟩ := m
  unfold Message.isUnit at h
  simp only [Bool.and_eq_true, List.isEmpty_iff] at h
  obtain ⟨⟨h1, h2⟩, _⟩ := h
  subst h1 h2
  rfl

/-- The generated `MessageWrite`. -/
theorem prog_write (G : Generates C P dflt) (hS : SchemaOk C) (hK : PackedOk C) {Q : Field → RVal → Prop} : ∀ (n : Nat) (idx : MessageIndex) (m : Message),
    C.D.getMessage idx = some m → ∀ v, WellTyped C Q n idx v →
    (P.writeImpl C.T dflt n (messagePath C.D m)).get_size v = (writeImpl C n idx).get_size v ∧
    ∀ (σ : Type) [WriterBackend σ], (P.writeImpl C.T dflt n (messagePath C.D m)).write_message v σ = (writeImpl C n idx).write_message v σ
  | 0, idx, m, hm, v, hv => by cases hv
  | n + 1, idx, m, hm, v, hv => by
    obtain ⟨m', slots, hm', rfl, hlen, hty⟩ := hv
    cases hm.symm.trans hm'
    obtain ⟨fs, size, write, read, db, hfs, hsb, hwb, hrb, hdb, hP⟩ := generated_def G hm
    have hsrc := sources_in hS hK hm hrb
    have A : Agree C (P.world C.T dflt 0 (fun _ _ => stuck) (P.writeImpl C.T dflt n) (messagePath C.D m)) (WellTyped C Q n)
        (fun _ _ => stuck) (writeImpl C n) :=
      agree_world G (fun _ _ _ _ => rfl) (fun idx m hm v hv => (prog_write G hS hK n idx m hm v hv).1)
        (fun idx m hm v hv => (prog_write G hS hK n idx m hm v hv).2)
    unfold Prog.writeImpl writeImpl
    simp only [hP, hm]
    refine ⟨?_, ?_⟩
    · cases hu : m.isUnit
      · simp only [Bool.false_eq_true, if_false]
        rw [size_body_eval A hm rfl hfs hsb hsrc hlen hty]
        rfl
      · rw [unit_members hu]
        rfl
    · intro σ _
      cases hu : m.isUnit
      · simp only [Bool.false_eq_true, if_false]
        rw [write_body_eval A rfl rfl hm rfl hfs hwb hsrc hlen hty, bind_assoc]
        exact bind_unit _
      · rw [unit_members hu]
        rfl

/-- The struct in which reading starts has the right shape. -/
theorem default_slots {m : Message} (hM : MessageOk C.cfg m) (c : Bool) : SlotsOk C.cfg m ((members C.cfg m).map (slotDefault C c)) := by
  refine ⟨by rw [List.length_map], ?_, ?_⟩
  · intro j f hj hb hg hp
    refine ⟨[], ?_⟩
    rw [List.getElem?_map, hj]
    simp only [Option.map_some, slotDefault, hb, hg, isPackedFixed, hp]
    rfl
  · intro j f hj hb hg
    refine ⟨[], ?_⟩
    rw [List.getElem?_map, hj]
    simp only [Option.map_some, slotDefault, hb, hg]
    rfl

/-- The generated `MessageRead`. -/
theorem prog_read (G : Generates C P dflt) (hS : SchemaOk C) (hK : PackedOk C) (hD : IsDefault C) : ∀ (n : Nat) (idx : MessageIndex) (m : Message),
    C.D.getMessage idx = some m → ∀ b, P.fromReader C.T dflt n (messagePath C.D m) b = fromReader C n idx b
  | 0, idx, m, hm, b => rfl
  | n + 1, idx, m, hm, b => by
    obtain ⟨fs, size, write, read, db, hfs, hsb, hwb, hrb, hdb, hP⟩ := generated_def G hm
    have hsrc := sources_in hS hK hm hrb
    have A : Agree C (P.world C.T dflt (n + 1) (P.fromReader C.T dflt n) (P.writeImpl C.T dflt n) (messagePath C.D m)) (fun _ _ => False)
        (fromReader C n) (writeImpl C n) :=
      agree_world G (fun idx m hm b => prog_read G hS hK hD n idx m hm b) (fun _ _ _ _ h => h.elim) (fun _ _ _ _ h => h.elim)
    unfold Prog.fromReader fromReader
    simp only [hP, hm]
    have hd := hD idx m hm
    have hexp : ∀ v : RVal, expect (σ := BytesReader) (.adt (messagePath C.D m) false) (.data (.adt (messagePath C.D m) false) v) = pure v := by
      intro v; simp only [expect, if_true]
    have hun : ∀ v : Val, unwrap (σ := BytesReader) (.ok v) = pure v := fun _ => rfl
    cases hu : m.isUnit
    · simp only [Bool.false_eq_true, if_false]
      rw [read_body_eval A rfl rfl hm rfl hfs hsrc hrb hd (default_slots (hS idx m hm) _), bind_assoc]
      simp only [pure_bind, hun, hexp, hd]
      rfl
    · simp only [if_true]
      rw [unit_body_eval A rfl hm rfl, bind_assoc]
      simp only [pure_bind, hun, hexp]

/-- `default()` of a field, derived. -/
theorem derived_eval {W : World} {sub : MessageIndex → RVal → Prop} {rd : MessageIndex → Bytes → RM RVal} {wr : MessageIndex → MessageWrite RVal}
    (A : Agree C W sub rd wr) {f : Field} (F : FieldIn C f) {FT : Ty}
    (hFT : fieldTy C.D C.cfg f = some FT) : tyDefault W FT.erase = slotDefault C false (.field f) := by
  obtain ⟨T, hT, rfl⟩ := Option.map_eq_some_iff.mp hFT
  simp only [slotDefault]
  cases hb : f.boxed
  · cases hg : f.frequency.generated <;> simp only [hg, Bool.false_eq_true, if_false]
    · cases ho : f.frequency.isOptional
      · exact tyDefault_eval A hT
      · rfl
    · cases hp : isPackedFixed f
      · have : (f.isPacked && f.typ.isFixedSize && !C.cfg.dontUseCow) = false := by
          unfold isPackedFixed at hp; rw [hp]; rfl
        rw [this]
        rfl
      · have : (f.isPacked && f.typ.isFixedSize && !C.cfg.dontUseCow) = true := by
          have h := F.cow hp
          unfold isPackedFixed at hp; rw [hp, h]; rfl
        have hfx : f.typ.isFixedSize = true := by unfold isPackedFixed at hp; simp at hp; exact hp.2
        obtain ⟨h1, h2⟩ := tyOf_size hT hfx
        rw [this]
        show (if T.erase.size = some 8 then RVal.pf64 .noDataYet else .pf32 .noDataYet) = _
        rw [h1, h2]
        by_cases hw : f.typ.wireTypeNumNonPacked = 1
        · simp only [hw, if_true]; rfl
        · simp only [hw, if_false]; rfl
    · have : f.typ.isMap = true := by
        rw [← F.ok.map]
        exact generated_map hg
      cases ht : f.typ <;> rw [ht] at this <;> try (cases this; done)
      rw [ht] at hT
      obtain ⟨a, b, _, _, rfl⟩ := tyOf_map hT
      rfl
  · rfl

theorem forall₂_map_eq {α β γ : Type} {f : α → γ} {g : β → γ} : ∀ {l : List α} {l' : List β}, List.Forall₂ (fun a b => f a = g b) l l' →
    l.map f = l'.map g
  | [], [], .nil => rfl
  | a :: l, b :: l', .cons h1 h2 => by rw [List.map_cons, List.map_cons, h1, forall₂_map_eq h2]

theorem mapM_some_of {α β γ : Type} {t : α → Option β} {g : γ → β} : ∀ {l : List α} {l' : List γ},
    List.Forall₂ (fun a b => t a = some (g b)) l l' → l.mapM t = some (l'.map g)
  | [], [], .nil => rfl
  | a :: l, b :: l', .cons h1 h2 => by rw [List.mapM_cons, h1, mapM_some_of h2]; rfl

/-- The fields in `default()`. -/
theorem prog_default (G : Generates C P dflt) (hS : SchemaOk C) (hK : PackedOk C) {idx : MessageIndex} {m : Message}
    (hm : C.D.getMessage idx = some m) {s : StructDef} (hs : P.structs (messagePath C.D m) = some s) 
    (hO : ∀ p vs, P.oneofs p = some vs → dflt p = .none) :
    P.defaultFields C.T dflt (messagePath C.D m) s = some ((members C.cfg m).map (slotDefault C (m.mustGenerateImplDefault C.D C.cfg))) := by
  obtain ⟨fs, size, write, read, db, hfs, hsb, hwb, hrb, hdb, hP⟩ := generated_def G hm
  cases hs.symm.trans hP
  have hsrc := sources_in hS hK hm hrb
  have A : Agree C (P.world C.T dflt 0 (fun _ _ => stuck) (fun _ => ⟨fun _ => 0, fun _ _ => stuck⟩) (messagePath C.D m)) (fun _ _ => False)
      (fun _ _ => stuck) (fun _ => ⟨fun _ => 0, fun _ _ => stuck⟩) :=
    agree_world G (fun _ _ _ _ => rfl) (fun _ _ _ _ h => h.elim) (fun _ _ _ _ h => h.elim)
  have hfs' := structFields_sources hfs
  have hmem := members_sources C.cfg m
  have hone : ∀ o ∈ m.oneofs, ∃ vs, P.oneofs (oneofPath C.D o) = some vs := by
    intro o ho
    obtain ⟨vs, _, h, _⟩ := G.oneofs idx m hm o ho
    exact ⟨vs, h⟩
  unfold Prog.defaultFields
  cases hc : m.mustGenerateImplDefault C.D C.cfg
  · simp only [Bool.false_eq_true, if_false]
    congr 1
    refine forall₂_map_eq (forall₂_get ?_ ?_)
    · rw [mapM_length hfs', hmem, List.length_map]
    · intro j ft mem hft hmj
      rw [hmem, List.getElem?_map] at hmj
      obtain ⟨s, hsj, rfl⟩ := Option.map_eq_some_iff.mp hmj
      obtain ⟨ft', hft', hsf⟩ := mapM_get hfs' hsj
      rw [hft] at hft'
      cases hft'
      have hin := hsrc s (List.mem_of_getElem? hsj)
      cases s with
      | inl f =>
        obtain ⟨FT, hFT, rfl⟩ := Option.map_eq_some_iff.mp hsf
        exact derived_eval A hin hFT
      | inr o =>
        obtain ⟨l, hl, rfl⟩ := Option.map_eq_some_iff.mp hsf
        have ho : o ∈ m.oneofs := by
          rcases List.mem_append.mp (List.mem_of_getElem? hsj) with h | h
          · obtain ⟨_, _, h⟩ := List.mem_map.mp h; cases h
          · obtain ⟨_, h, h'⟩ := List.mem_map.mp h; cases h'; exact h
        obtain ⟨vs, hvs⟩ := hone o ho
        exact hO _ vs hvs
  · simp only [if_true]
    obtain ⟨gs, hgs, rfl⟩ := Option.map_eq_some_iff.mp hdb
    have hall : (sources C.cfg m).mapM (fun s => match s with
        | .inl f => (defaultTree C.D C.cfg f).map fun e => (f.name, e)
        | .inr o => some (o.name, Expr.variantNone (oneofPath C.D o))) =
          some (gs ++ m.oneofs.map fun o => (o.name, Expr.variantNone (oneofPath C.D o))) :=
      mapM_append (by rw [mapM_map]; exact hgs)
        (by rw [mapM_map]; exact mapM_some_of (forall₂_get rfl fun i a b ha hb => by rw [ha] at hb; cases hb; rfl))
    have hnames : (gs ++ m.oneofs.map fun o => (o.name, Expr.variantNone (oneofPath C.D o))).map (·.1) = fs.map (·.1) := by
      refine forall₂_map_eq (forall₂_get (by rw [mapM_length hall, mapM_length hfs']) ?_)
      intro j a b ha hb
      obtain ⟨s, hsj, hsa⟩ := mapM_get' hall ha
      obtain ⟨b', hb', hsb⟩ := mapM_get hfs' hsj
      rw [hb] at hb'
      cases hb'
      cases s with
      | inl f =>
        obtain ⟨e, _, rfl⟩ := Option.map_eq_some_iff.mp hsa
        obtain ⟨T, _, rfl⟩ := Option.map_eq_some_iff.mp hsb
        rfl
      | inr o =>
        cases hsa
        obtain ⟨T, _, rfl⟩ := Option.map_eq_some_iff.mp hsb
        rfl
    rw [if_pos hnames]
    refine mapM_some_of (forall₂_get ?_ ?_)
    · rw [List.length_zip, mapM_length hall, mapM_length hfs', hmem, List.length_map, Nat.min_self]
    · intro j x mem hx hmj
      rw [hmem, List.getElem?_map] at hmj
      obtain ⟨s, hsj, rfl⟩ := Option.map_eq_some_iff.mp hmj
      rw [List.getElem?_zip_eq_some] at hx
      obtain ⟨hx1, hx2⟩ := hx
      obtain ⟨e, he, hse⟩ := mapM_get hall hsj
      rw [hx1] at he
      obtain ⟨b', hb', hsb⟩ := mapM_get hfs' hsj
      rw [hx2] at hb'
      have hin := hsrc s (List.mem_of_getElem? hsj)
      obtain ⟨x1, x2⟩ := x
      cases he
      cases hb'
      cases s with
      | inl f =>
        obtain ⟨e, he, rfl⟩ := Option.map_eq_some_iff.mp hse
        obtain ⟨T, hT, rfl⟩ := Option.map_eq_some_iff.mp hsb
        simp only [default_eval A noHost _ hin hT he, SM.pure_run, if_true]
        rfl
      | inr o =>
        cases hse
        obtain ⟨l, hl, rfl⟩ := Option.map_eq_some_iff.mp hsb
        have ho : o ∈ m.oneofs := by
          rcases List.mem_append.mp (List.mem_of_getElem? hsj) with h | h
          · obtain ⟨_, _, h⟩ := List.mem_map.mp h; cases h
          · obtain ⟨_, h, h'⟩ := List.mem_map.mp h; cases h'; exact h
        obtain ⟨vs, hvs⟩ := hone o ho
        have hsome : ((P.world C.T dflt 0 (fun _ _ => stuck) (fun _ => ⟨fun _ => 0, fun _ _ => stuck⟩)
            (messagePath C.D m)).oneofs (oneofPath C.D o)).isSome = true := by
          show ((P.oneofs _).map _).isSome = true
          rw [hvs]; rfl
        simp only [evalExpr, hsome, if_true, SM.pure_run, Ty.erase]
        rfl

/-- The `Default` of the program is the generated one. -/
theorem isDefault_of_prog (G : Generates C P dflt) (hS : SchemaOk C) (hK : PackedOk C) (hD : P.IsDefault C.T dflt) : IsDefault C := by
  intro idx m hm
  obtain ⟨_, _, _, _, _, _, _, _, _, _, hP⟩ := generated_def G hm
  obtain ⟨l, hl, hd⟩ := hD.structs _ _ hP
  rw [prog_default G hS hK hm hP hD.oneofs] at hl
  cases hl
  rw [← G.default idx m hm, hd]

end

end QP.Rust
