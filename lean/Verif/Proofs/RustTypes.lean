import Verif.Proofs.GenExists
import Verif.Proofs.Typed
import Verif.Spec.RustTypes
set_option linter.unusedVariables false
/-!
The values of the generated types are the well-typed ones.
-/

namespace QP.Rust
open QP.Pbrs QP.Gen Spec

section
variable {S S' : Path → RVal → Prop}

theorem TyVal.imp (h : ∀ p v, S p v → S' p v) : ∀ (t : Ty) (v : RVal), TyVal S t v → TyVal S' t v
  | .i32, v, hv | .u32, v, hv | .f32, v, hv | .i64, v, hv | .u64, v, hv | .f64, v, hv | .bool, v, hv | .cowStr, v, hv
  | .string, v, hv | .cowBytes, v, hv | .vecU8, v, hv => by simpa only [TyVal] using hv
  | .adt p l, v, hv => by simp only [TyVal] at hv ⊢; exact h p v hv
  | .option t, v, hv => by
    simp only [TyVal] at hv ⊢
    rcases hv with hv | ⟨x, hx, hv⟩
    · exact .inl hv
    · exact .inr ⟨x, hx, TyVal.imp h t x hv⟩
  | .box t, v, hv => by simp only [TyVal] at hv ⊢; exact TyVal.imp h t v hv
  | .vec t, v, hv => by
    simp only [TyVal] at hv ⊢
    obtain ⟨l, hl, hv⟩ := hv
    exact ⟨l, hl, fun x hx => TyVal.imp h t x (hv x hx)⟩
  | .packed t, v, hv => by simpa only [TyVal] using hv
  | .kvmap k t, v, hv => by
    simp only [TyVal] at hv ⊢
    obtain ⟨l, hl, hv, hp⟩ := hv
    exact ⟨l, hl, fun e he => ⟨TyVal.imp h k _ (hv e he).1, TyVal.imp h t _ (hv e he).2⟩, hp⟩
  | .usize, v, hv | .str, v, hv | .slice, v, hv | .ref _, v, hv => by simp only [TyVal] at hv

end

theorem AdtVal.mono {P : Prog} {n k : Nat} (h : n ≤ k) : ∀ p v, AdtVal P n p v → AdtVal P k p v := by
  induction n generalizing k with
  | zero => intro _ _ h; exact h.elim
  | succ n ih =>
    obtain ⟨k, rfl⟩ : ∃ j, k = j + 1 := ⟨k - 1, by omega⟩
    have ih := ih (k := k) (by omega)
    rintro p v (⟨s, slots, h1, h2, h3, h4⟩ | ⟨vs, h1, h2 | ⟨i, x, t, w, h2, h3, h4⟩⟩ | h)
    · exact .inl ⟨s, slots, h1, h2, h3, fun x hx => TyVal.imp ih _ _ (h4 x hx)⟩
    · exact .inr (.inl ⟨vs, h1, .inl h2⟩)
    · exact .inr (.inl ⟨vs, h1, .inr ⟨i, x, t, w, h2, h3, TyVal.imp ih _ _ h4⟩⟩)
    · exact .inr (.inr h)

section
variable {C : Ctx} {P : Prog} {dflt : Path → RVal} {S : Path → RVal → Prop} {sub : MessageIndex → RVal → Prop}

/-- Values of field types are values of their Rust types. -/
theorem tyVal_of (hm : ∀ i m v, C.D.getMessage i = some m → sub i v → S (messagePath C.D m) v)
    (he : ∀ e en x, C.D.getEnum e = some en → x ∈ C.enumNums e → S (enumPath C.D en) (.w32 x))
    {typ : FieldType} {t : Ty} (ht : tyOf C.D C.cfg typ = some t) {v : RVal} (hv : HasType C sub typ v) : TyVal S t v := by
  cases typ with
  | enum e =>
    obtain ⟨en, hen, rfl⟩ := Option.map_eq_some_iff.mp ht
    obtain ⟨x, rfl, hx⟩ := hv
    exact he e en x hen hx
  | message i =>
    obtain ⟨m, hmm, ht⟩ := Option.bind_eq_some_iff.mp ht
    obtain ⟨l, hl, rfl⟩ := Option.map_eq_some_iff.mp ht
    exact hm i m v hmm hv
  | map k w => exact hv.elim
  | messageOrEnum s => exact hv.elim
  | _ => cases ht; exact hv

/-- And conversely. -/
theorem hasType_of (hm : ∀ i m v, C.D.getMessage i = some m → S (messagePath C.D m) v → sub i v)
    (he : ∀ e en v, C.D.getEnum e = some en → S (enumPath C.D en) v → ∃ x, v = .w32 x ∧ x ∈ C.enumNums e)
    {typ : FieldType} (hmap : typ.isMap = false) {t : Ty} (ht : tyOf C.D C.cfg typ = some t) {v : RVal} (hv : TyVal S t v) :
    HasType C sub typ v := by
  cases typ with
  | enum e =>
    obtain ⟨en, hen, rfl⟩ := Option.map_eq_some_iff.mp ht
    exact he e en v hen hv
  | message i =>
    obtain ⟨m, hmm, ht⟩ := Option.bind_eq_some_iff.mp ht
    obtain ⟨l, hl, rfl⟩ := Option.map_eq_some_iff.mp ht
    exact hm i m v hmm hv
  | map k w => cases hmap
  | messageOrEnum s => cases ht
  | _ => cases ht; exact hv

/-- The widths of fixed-size types. -/
theorem width_of {typ : FieldType} (h : typ.isFixedSize = true) {t : Ty} (ht : tyOf C.D C.cfg typ = some t) :
    t.width = if typ.wireTypeNumNonPacked = 1 then 8 else 4 := by
  cases typ <;> first | (cases ht; rfl) | cases h

/-- Of a struct's field. -/
theorem fieldVal_of (hm : ∀ i m v, C.D.getMessage i = some m → sub i v → S (messagePath C.D m) v)
    (he : ∀ e en x, C.D.getEnum e = some en → x ∈ C.enumNums e → S (enumPath C.D en) (.w32 x))
    {f : Field} (F : FieldIn C f) {t : Ty} (ht : fieldTy C.D C.cfg f = some t) {Q : Field → RVal → Prop} {v : RVal}
    (hv : FieldTyped C Q sub f v) : TyVal S t v := by
  obtain ⟨T, hT, rfl⟩ := Option.map_eq_some_iff.mp ht
  have hbx := F.ok.boxed
  unfold FieldTyped at hv
  cases hg : f.frequency.generated with
  | singular =>
    simp only [hg] at hv ⊢
    cases ho : f.frequency.isOptional with
    | false =>
      rw [ho] at hbx
      have hb : f.boxed = false := by cases h : f.boxed; · rfl
                                      · exact absurd (hbx h) Bool.false_ne_true
      simp only [ho, hb, Bool.false_eq_true, if_false] at hv ⊢
      exact tyVal_of hm he hT hv.1
    | true =>
      simp only [ho, if_true] at hv ⊢
      have hcase : TyVal S (.option T) v := by
        simp only [TyVal]
        rcases hv with hv | ⟨x, hx, hv⟩
        · exact .inl hv
        · exact .inr ⟨x, hx, tyVal_of hm he hT hv⟩
      split
      · simpa only [TyVal] using hcase
      · exact hcase
  | arrayLike =>
    have hb : f.boxed = false := by
      cases h : f.boxed
      · rfl
      · have := hbx h; revert hg this; cases f.frequency <;> simp [Frequency.generated, Frequency.isMap, Frequency.isRepeated, Frequency.isOptional]
    simp only [hg, hb, Bool.false_eq_true, if_false] at hv ⊢
    cases hp : isPackedFixed f with
    | true =>
      have hc := F.cow hp
      have hp' := hp
      unfold isPackedFixed at hp'
      simp only [hp, hp', hc, Bool.not_false, Bool.and_true, if_true] at hv ⊢
      have hw := width_of (C := C) (Bool.and_eq_true _ _ ▸ hp').2 hT
      simp only [TyVal]
      split at hv
      · rename_i h1; rw [if_pos h1] at hw; exact .inr ⟨hw, hv⟩
      · rename_i h1; rw [if_neg h1] at hw; exact .inl ⟨hw, hv⟩
    | false =>
      have hp' := hp
      unfold isPackedFixed at hp'
      simp only [hp, hp', Bool.false_and, Bool.false_eq_true, if_false] at hv ⊢
      obtain ⟨l, hl, hv⟩ := hv
      simp only [TyVal]
      exact ⟨l, hl, fun x hx => tyVal_of hm he hT (hv x hx)⟩
  | map =>
    have hb : f.boxed = false := by
      cases h : f.boxed
      · rfl
      · have := hbx h; revert hg this; cases f.frequency <;> simp [Frequency.generated, Frequency.isMap, Frequency.isRepeated, Frequency.isOptional]
    simp only [hg, hb, Bool.false_eq_true, if_false] at hv ⊢
    obtain ⟨k, w, l, hk, hl, hv, hp⟩ := hv
    rw [hk] at hT
    obtain ⟨tk, htk, hT⟩ := Option.bind_eq_some_iff.mp hT
    obtain ⟨tw, htw, rfl⟩ := Option.map_eq_some_iff.mp hT
    simp only [TyVal]
    exact ⟨l, hl, fun e hee => ⟨tyVal_of hm he htk (hv e hee).1, tyVal_of hm he htw (hv e hee).2⟩, hp⟩

/-- And conversely. -/
theorem fieldTyped_of (hm : ∀ i m v, C.D.getMessage i = some m → S (messagePath C.D m) v → sub i v)
    (he : ∀ e en v, C.D.getEnum e = some en → S (enumPath C.D en) v → ∃ x, v = .w32 x ∧ x ∈ C.enumNums e)
    {f : Field} (F : FieldIn C f) (hmap : ∀ k w, f.typ = .map k w → k.isMap = false ∧ w.isMap = false)
    {t : Ty} (ht : fieldTy C.D C.cfg f = some t) {v : RVal}
    (hv : TyVal S t v) : FieldTyped C AnyValue sub f v := by
  obtain ⟨T, hT, rfl⟩ := Option.map_eq_some_iff.mp ht
  have hbx := F.ok.boxed
  have hnm : f.frequency.isMap = f.typ.isMap := F.ok.map
  unfold FieldTyped
  cases hg : f.frequency.generated with
  | singular =>
    have hn : f.typ.isMap = false := F.notMap hg
    simp only [hg] at hv ⊢
    cases ho : f.frequency.isOptional with
    | false =>
      rw [ho] at hbx
      have hb : f.boxed = false := by cases h : f.boxed; · rfl
                                      · exact absurd (hbx h) Bool.false_ne_true
      simp only [ho, hb, Bool.false_eq_true, if_false] at hv ⊢
      exact ⟨hasType_of hm he hn hT hv, fun _ => trivial⟩
    | true =>
      simp only [ho, if_true] at hv ⊢
      have hcase : TyVal S (.option T) v := by
        split at hv
        · simpa only [TyVal] using hv
        · exact hv
      simp only [TyVal] at hcase
      rcases hcase with hv | ⟨x, hx, hv⟩
      · exact .inl hv
      · exact .inr ⟨x, hx, hasType_of hm he hn hT hv⟩
  | arrayLike =>
    have hn : f.typ.isMap = false := by
      rw [← hnm]; revert hg; cases f.frequency <;> simp [Frequency.generated, Frequency.isMap, Frequency.isRepeated]
    have hb : f.boxed = false := by
      cases h : f.boxed
      · rfl
      · have := hbx h; revert hg this; cases f.frequency <;> simp [Frequency.generated, Frequency.isMap, Frequency.isRepeated, Frequency.isOptional]
    simp only [hg, hb, Bool.false_eq_true, if_false] at hv ⊢
    cases hp : isPackedFixed f with
    | true =>
      have hc := F.cow hp
      have hp' := hp
      unfold isPackedFixed at hp'
      simp only [hp', hc, Bool.not_false, Bool.and_true, if_true] at hv ⊢
      have hw := width_of (C := C) (Bool.and_eq_true _ _ ▸ hp').2 hT
      simp only [TyVal] at hv
      split
      · rename_i h1; rw [if_pos h1] at hw
        rcases hv with ⟨h4, _⟩ | ⟨_, hv⟩
        · omega
        · exact hv
      · rename_i h1; rw [if_neg h1] at hw
        rcases hv with ⟨_, hv⟩ | ⟨h4, _⟩
        · exact hv
        · omega
    | false =>
      have hp' := hp
      unfold isPackedFixed at hp'
      simp only [hp', Bool.false_and, Bool.false_eq_true, if_false] at hv ⊢
      simp only [TyVal] at hv
      obtain ⟨l, hl, hv⟩ := hv
      exact ⟨l, hl, fun x hx => hasType_of hm he hn hT (hv x hx)⟩
  | map =>
    have hn : f.typ.isMap = true := by
      rw [← hnm]; revert hg; cases f.frequency <;> simp [Frequency.generated, Frequency.isMap, Frequency.isRepeated]
    have hb : f.boxed = false := by
      cases h : f.boxed
      · rfl
      · have := hbx h; revert hg this; cases f.frequency <;> simp [Frequency.generated, Frequency.isMap, Frequency.isRepeated, Frequency.isOptional]
    simp only [hg, hb, Bool.false_eq_true, if_false] at hv ⊢
    cases hk : f.typ with
    | map k w =>
      rw [hk] at hT
      obtain ⟨tk, htk, hT⟩ := Option.bind_eq_some_iff.mp hT
      obtain ⟨tw, htw, rfl⟩ := Option.map_eq_some_iff.mp hT
      simp only [TyVal] at hv
      obtain ⟨l, hl, hv, hp⟩ := hv
      obtain ⟨h1, h2⟩ := hmap k w hk
      exact ⟨k, w, l, rfl, hl, fun e hee => ⟨hasType_of hm he h1 htk (hv e hee).1, hasType_of hm he h2 htw (hv e hee).2⟩, hp⟩
    | _ => rw [hk] at hn; cases hn

theorem readTree_flat {D : FileDescriptor} {t : FieldType} {e : Expr} (h : readTree D t = some e) : t.isMap = false := by
  cases t <;> first | rfl | cases h

/-- Maps are flat, and variants are not maps, in messages that are printed. -/
theorem read_flat {m : Message} {b : Body} (hS : SchemaOk C) {idx : MessageIndex} (hm : C.D.getMessage idx = some m) (hb : readBody C.D C.cfg m = some b) :
    (∀ f ∈ shownFields C.cfg m, ∀ k w, f.typ = .map k w → k.isMap = false ∧ w.isMap = false) ∧
    ∀ o ∈ m.oneofs, ∀ f ∈ o.shown C.cfg, f.typ.isMap = false := by
  obtain ⟨ts, hts, hb⟩ := Option.bind_eq_some_iff.mp hb
  obtain ⟨os, hos, _⟩ := Option.map_eq_some_iff.mp hb
  refine ⟨?_, ?_⟩
  · intro f hf k w hk
    have hM : FieldOk f := (hS idx m hm).members (.field f) (by
      rw [members_sources]
      exact List.mem_map.mpr ⟨.inl f, List.mem_append_left _ (List.mem_map.mpr ⟨f, hf, rfl⟩), rfl⟩)
    have hmp := hM.map
    rw [hk] at hmp
    have hg : f.frequency.generated = .map := by unfold Frequency.generated; rw [hmp]; rfl
    obtain ⟨t, ht⟩ := mapM_mem_some hts hf
    obtain ⟨body, hbody, _⟩ := Option.map_eq_some_iff.mp ht
    unfold matchTree at hbody
    rw [hk, hg] at hbody
    cases hbx : f.boxed with
    | true => rw [hbx] at hbody; cases hbody
    | false =>
      rw [hbx] at hbody
      simp only [Bool.false_eq_true, if_false] at hbody
      obtain ⟨kt, _, hbody⟩ := Option.bind_eq_some_iff.mp hbody
      obtain ⟨vt, _, hbody⟩ := Option.bind_eq_some_iff.mp hbody
      obtain ⟨ke, h1, hbody⟩ := Option.bind_eq_some_iff.mp hbody
      obtain ⟨ve, h2, _⟩ := Option.map_eq_some_iff.mp hbody
      exact ⟨readTree_flat h1, readTree_flat h2⟩
  · intro o ho f hf
    obtain ⟨ts', hts'⟩ := mapM_mem_some hos ho
    obtain ⟨t, ht⟩ := mapM_mem_some hts' hf
    unfold oneofMatchTree at ht
    simp only at ht
    split at ht
    · split at ht
      · rename_i i hi; rw [hi]; rfl
      · cases ht
    · obtain ⟨e, h1, _⟩ := Option.map_eq_some_iff.mp ht
      exact readTree_flat h1

/-- Well-typed values are values of the generated struct. -/
theorem adtVal_of (G : Generates C P dflt) (hS : SchemaOk C) (hK : PackedOk C) {Q : Field → RVal → Prop} : ∀ (n : Nat) (idx : MessageIndex) (m : Message) (v : RVal),
    C.D.getMessage idx = some m → WellTyped C Q n idx v → AdtVal P (2 * n + 1) (messagePath C.D m) v
  | 0, idx, m, v, hm, hv => by cases hv
  | n + 1, idx, m, v, hm, hv => by
    obtain ⟨m', slots, hm', rfl, hlen, hty⟩ := hv
    cases hm.symm.trans hm'
    obtain ⟨fs, size, write, read, db, hfs, hsb, hwb, hrb, hdb, hP⟩ := generated_def G hm
    have hsrc := sources_in hS hK hm hrb
    have hmsg : ∀ k, 2 * n + 1 ≤ k → ∀ i m v, C.D.getMessage i = some m → WellTyped C Q n i v → AdtVal P k (messagePath C.D m) v :=
      fun k hk i m v h1 h2 => AdtVal.mono hk _ _ (adtVal_of G hS hK n i m v h1 h2)
    have henum : ∀ k, 1 ≤ k → ∀ e en x, C.D.getEnum e = some en → x ∈ C.enumNums e → AdtVal P k (enumPath C.D en) (.w32 x) := by
      intro k hk e en x he hx
      obtain ⟨k, rfl⟩ : ∃ j, k = j + 1 := ⟨k - 1, by omega⟩
      refine .inr (.inr ⟨_, G.enums e en he, x, rfl, ?_⟩)
      unfold Ctx.enumNums at hx
      rw [he] at hx
      exact hx
    have hsf := structFields_sources hfs
    have hlf : fs.length = (sources C.cfg m).length := mapM_length hsf
    rw [members_sources, List.length_map] at hlen
    refine .inl ⟨_, slots, hP, rfl, by rw [hlen, ← hlf], ?_⟩
    intro x hx
    obtain ⟨j, hj⟩ := List.mem_iff_getElem?.mp hx
    obtain ⟨hj1, hj2⟩ := List.getElem?_zip_eq_some.mp hj
    obtain ⟨s, hs, hst⟩ := mapM_get' hsf hj1
    have hin := hsrc s (List.mem_of_getElem? hs)
    have ht := hty (memberOf C.cfg s, x.2) (List.mem_of_getElem? (List.getElem?_zip_eq_some.mpr
      ⟨by rw [members_sources, List.getElem?_map, hs]; rfl, hj2⟩))
    cases s with
    | inl f =>
      obtain ⟨t, htt, hx1⟩ := Option.map_eq_some_iff.mp hst
      rw [← hx1]
      exact fieldVal_of (hmsg _ (by omega)) (henum _ (by omega)) hin htt ht
    | inr o =>
      obtain ⟨l, htt, hx1⟩ := Option.map_eq_some_iff.mp hst
      rw [← hx1]
      obtain ⟨idx', m', hm', ho⟩ := hin.mem
      obtain ⟨vs, hvs, hPo, hn⟩ := G.oneofs idx' m' hm' o ho
      simp only [TyVal]
      refine .inr (.inl ⟨vs, hPo, ?_⟩)
      rcases ht with ht | ⟨i, f, w, h1, h2, h3⟩
      · exact .inl ht
      · obtain ⟨b, hb, hfb⟩ := mapM_get hvs h1
        obtain ⟨T, hT, rfl⟩ := Option.map_eq_some_iff.mp hfb
        refine .inr ⟨i, _, _, w, hb, h2, ?_⟩
        have h4 : TyVal (AdtVal P (2 * n + 1)) T w := tyVal_of (hmsg _ (by omega)) (henum _ (by omega)) hT h3
        split
        · simp only [TyVal]; exact h4
        · exact h4

/-- Values of the generated struct are well-typed. -/
theorem wellTyped_of (G : Generates C P dflt) (hS : SchemaOk C) (hK : PackedOk C) (h1 : OneKind P) : ∀ (n : Nat) (idx : MessageIndex) (m : Message) (v : RVal),
    C.D.getMessage idx = some m → AdtVal P n (messagePath C.D m) v → WellTyped C AnyValue n idx v
  | 0, idx, m, v, hm, hv => by cases hv
  | n + 1, idx, m, v, hm, hv => by
    obtain ⟨fs, size, write, read, db, hfs, hsb, hwb, hrb, hdb, hP⟩ := generated_def G hm
    have hsrc := sources_in hS hK hm hrb
    obtain ⟨hflat, hoflat⟩ := read_flat hS hm hrb
    rcases hv with ⟨s, slots, hs, rfl, hlen, hty⟩ | ⟨vs, hvs, _⟩ | ⟨ns, hns, _⟩
    · cases hP.symm.trans hs
      have hmsg : ∀ k, k ≤ n → ∀ i m v, C.D.getMessage i = some m → AdtVal P k (messagePath C.D m) v → WellTyped C AnyValue n i v :=
        fun k hk i m v a b => wellTyped_of G hS hK h1 n i m v a (AdtVal.mono hk _ _ b)
      have henum : ∀ k, ∀ e en v, C.D.getEnum e = some en → AdtVal P k (enumPath C.D en) v → ∃ x, v = .w32 x ∧ x ∈ C.enumNums e := by
        intro k e en v he hv
        have hPe := G.enums e en he
        cases k with
        | zero => cases hv
        | succ k =>
          rcases hv with ⟨s, slots, hs, _⟩ | ⟨vs, hvs, _⟩ | ⟨ns, hns, x, hx, hm⟩
          · exact (h1.structEnum _ _ _ hs hPe).elim
          · exact (h1.oneofEnum _ _ _ hvs hPe).elim
          · cases hPe.symm.trans hns
            refine ⟨x, hx, ?_⟩
            unfold Ctx.enumNums
            rw [he]
            exact hm
      have hsf := structFields_sources hfs
      have hlf : fs.length = (sources C.cfg m).length := mapM_length hsf
      refine ⟨m, slots, hm, rfl, by rw [members_sources, List.length_map, hlen, ← hlf], ?_⟩
      intro p hp
      obtain ⟨j, hj⟩ := List.mem_iff_getElem?.mp hp
      obtain ⟨hj1, hj2⟩ := List.getElem?_zip_eq_some.mp hj
      rw [members_sources, List.getElem?_map] at hj1
      obtain ⟨s, hs, hsp⟩ := Option.map_eq_some_iff.mp hj1
      obtain ⟨b, hb, hst⟩ := mapM_get hsf hs
      have hin := hsrc s (List.mem_of_getElem? hs)
      have ht : TyVal (AdtVal P n) b.2 p.2 := hty (b, p.2) (List.mem_of_getElem? (List.getElem?_zip_eq_some.mpr ⟨hb, hj2⟩))
      rw [← hsp]
      cases s with
      | inl f =>
        obtain ⟨t, htt, rfl⟩ := Option.map_eq_some_iff.mp hst
        have hfm : f ∈ shownFields C.cfg m := by
          have := List.mem_of_getElem? hs
          rcases List.mem_append.mp this with h | h
          · obtain ⟨g, hg, e⟩ := List.mem_map.mp h; cases e; exact hg
          · obtain ⟨g, hg, e⟩ := List.mem_map.mp h; cases e
        exact fieldTyped_of (hmsg n (Nat.le_refl n)) (henum n) hin (hflat f hfm) htt ht
      | inr o =>
        obtain ⟨l, htt, rfl⟩ := Option.map_eq_some_iff.mp hst
        have hom : o ∈ m.oneofs := by
          have := List.mem_of_getElem? hs
          rcases List.mem_append.mp this with h | h
          · obtain ⟨g, hg, e⟩ := List.mem_map.mp h; cases e
          · obtain ⟨g, hg, e⟩ := List.mem_map.mp h; cases e; exact hg
        obtain ⟨vs, hvs, hPo, hn⟩ := G.oneofs idx m hm o hom
        simp only [TyVal] at ht
        cases n with
        | zero => cases ht
        | succ k =>
          rcases ht with ⟨s, slots, hs, _⟩ | ⟨vs', hvs', ht⟩ | ⟨ns, hns, _⟩
          · exact (h1.structOneof _ _ _ hs hPo).elim
          · cases hPo.symm.trans hvs'
            rcases ht with ht | ⟨i, x, t, w, a, b, c⟩
            · exact .inl ht
            · obtain ⟨f, hf, hfb⟩ := mapM_get' hvs a
              obtain ⟨T, hT, e⟩ := Option.map_eq_some_iff.mp hfb
              refine .inr ⟨i, f, w, hf, b, ?_⟩
              have hc : TyVal (AdtVal P k) T w := by
                have e2 := congrArg Prod.snd e
                simp only at e2
                rw [← e2] at c
                split at c
                · simpa only [TyVal] using c
                · exact c
              exact hasType_of (hmsg k (by omega)) (henum k) (hoflat o hom f (List.mem_of_getElem? hf)) hT hc
          · exact (h1.oneofEnum _ _ _ hPo hns).elim
    · exact (h1.structOneof _ _ _ hP hvs).elim
    · exact (h1.structEnum _ _ _ hP hns).elim

end

/-- The paths of the printed program are of one kind each. -/
theorem oneKind_progOf {D : FileDescriptor} {cfg : Config} {K : Ty → Str → RVal} (hD : Distinct D cfg) : OneKind (progOf D cfg K) where
  structOneof := by
    intro p s vs h1 h2
    simp only [progOf] at h1 h2
    split at h1
    · rename_i a
      split at h2
      · rename_i b
        obtain ⟨m, i, ha, e⟩ := a
        obtain ⟨o, j, m', hb, ho, e'⟩ := b
        exact hD.messageOneof _ _ _ _ ha hb o ho (e.trans e'.symm)
      · cases h2
    · cases h1
  structEnum := by
    intro p s vs h1 h2
    simp only [progOf] at h1 h2
    split at h1
    · rename_i a
      split at h2
      · rename_i b
        obtain ⟨m, i, ha, e⟩ := a
        obtain ⟨en, ei, hb, e'⟩ := b
        exact hD.messageEnum _ _ _ _ ha hb (e.trans e'.symm)
      · cases h2
    · cases h1
  oneofEnum := by
    intro p s vs h1 h2
    simp only [progOf] at h1 h2
    split at h1
    · rename_i a
      split at h2
      · rename_i b
        obtain ⟨o, j, m', ha, ho, e⟩ := a
        obtain ⟨en, ei, hb, e'⟩ := b
        exact hD.enumOneof _ _ _ _ hb ha o ho (e'.trans e.symm)
      · cases h2
    · cases h1

end QP.Rust
