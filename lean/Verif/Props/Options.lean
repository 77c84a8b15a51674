import Verif.Proofs.OptionsSame
import Verif.Props.Generated
import Verif.Props.Defaults
set_option linter.unusedVariables false
/-!
# Options of the generator do not change the format (C109)
-/

namespace QP.Rust
open QP.Pbrs QP.Gen

/-- The text that is written for a default, with and without `--dont_use_cow`, has the same value. -/
theorem literal_same (F : Rounding) (p₁ p₂ : FieldType → Str) (E₁ E₂ : FileDescriptor) (c₁ c₂ : Config) {t : FieldType} {b₁ b₂ : Bool}
    (hl : literalType (if b₁ then t.owned else t) = true) (s : Str) :
    litValue F (litTy E₁ c₁ (if b₁ then t.owned else t)) (rewritten p₁ (if b₁ then t.owned else t) s) =
      litValue F (litTy E₂ c₂ (if b₂ then t.owned else t)) (rewritten p₂ (if b₂ then t.owned else t) s) := by
  have hst : litValue F .cowStr (rewritten p₁ .stringCow s) = litValue F (.ref .str) (rewritten p₁ .string_ s) := by
    show litValue F .cowStr (c! "Cow::Borrowed(\"" ++ s ++ c! "\")") = litValue F (.ref .str) (c! "\"" ++ s ++ c! "\"")
    rw [litValue, litValue, between_append, between_append]
  have hby : litValue F .cowBytes (rewritten p₁ .bytesCow s) = litValue F (.ref .slice) (rewritten p₁ .bytes_ s) := by
    show litValue F .cowBytes (c! "Cow::Borrowed(b\"" ++ s ++ c! "\")") = litValue F (.ref .slice) (c! "b\"" ++ s ++ c! "\"")
    rw [litValue, litValue, between_append, between_append]
  cases b₁ <;> cases b₂ <;> cases t <;> first | (cases hl; done) | rfl | exact hst | exact hst.symm | exact hby | exact hby.symm

section
variable {n₁ n₂ : Nat} {j₁ j₂ : Job} {d₁ d₂ : Disk} {D E₁ E₂ : FileDescriptor} (hr₁ : readProtoFile d₁.file j₁.search n₁ j₁.inFile = .ok D)
  (hr₂ : readProtoFile d₂.file j₂.search n₂ j₂.inFile = .ok D) (hE₁ : j₁.compiled n₁ d₁ = some E₁) (hE₂ : j₂.compiled n₂ d₂ = some E₂)
include hr₁ hr₂ hE₁ hE₂

theorem same_jobs (hf : NoNestedMaps D) (hdep : j₁.cfg.addDeprecatedFields = j₂.cfg.addDeprecatedFields) {C₁ C₂ : Ctx} (hD₁ : C₁.D = E₁) (hc₁ : C₁.cfg = j₁.cfg)
    (hD₂ : C₂.D = E₂) (hc₂ : C₂.cfg = j₂.cfg) (hT : C₁.T = C₂.T) (hd₁ : IsDefault C₁) (hd₂ : IsDefault C₂) (hK : SameConstants C₁ C₂) : SameCtx C₁ C₂ := by
  obtain ⟨D₁, h₁, e₁⟩ := compiled_compile hr₁ hE₁
  obtain ⟨D₂, h₂, e₂⟩ := compiled_compile hr₂ hE₂
  have hR : RefsOk C₁.D := by
    obtain ⟨_, hR', _⟩ := C65_compiled (parsed_owned j₁.cfg.owned (C68_parsed hr₁ hf)) h₁
    rw [hD₁, e₁]
    intro i m hg f hf'
    rw [printed_get] at hg
    exact ⟨fun k hk => by rw [printed_get]; exact (hR' i m hg f hf').1 k hk, (hR' i m hg f hf').2⟩
  rw [← hc₁] at h₁
  rw [← hc₂] at h₂
  exact same_compiled (D := D) (b₁ := C₁.cfg.owned) (b₂ := C₂.cfg.owned) h₁ h₂ (by rw [hD₁, e₁, hc₁]) (by rw [hD₂, e₂, hc₂]) hT (by rw [hc₁, hc₂]; exact hdep) hR hd₁ hd₂ hK

/-- The messages, their fields and their oneofs have the same names and numbers, and are at the same places. -/
theorem C109_names {i : MessageIndex} {m₁ : Message} (hm : E₁.getMessage i = some m₁) : ∃ m₂, E₂.getMessage i = some m₂ ∧ m₂.name = m₁.name ∧
    m₂.fields.map (fun f => (f.name, f.number)) = m₁.fields.map (fun f => (f.name, f.number)) ∧
    m₂.oneofs.map (fun o => (o.name, o.fields.map fun f => (f.name, f.number))) = m₁.oneofs.map (fun o => (o.name, o.fields.map fun f => (f.name, f.number))) := by
  obtain ⟨D₁, h₁, e₁⟩ := compiled_compile hr₁ hE₁
  obtain ⟨D₂, h₂, e₂⟩ := compiled_compile hr₂ hE₂
  have h₁ : (D.own j₁.cfg.owned).compile (typePath j₁.cfg) j₁.cfg = .ok D₁ := h₁
  have h₂ : (D.own j₂.cfg.owned).compile (typePath j₂.cfg) j₂.cfg = .ok D₂ := h₂
  rw [e₁, printed_get] at hm
  obtain ⟨hA, hB⟩ := compiled_named h₁ h₂
  obtain ⟨a₁, _⟩ := compile_shells h₁
  obtain ⟨a₂, _⟩ := compile_shells h₂
  have hsh : (D₂.getMessage i).map Message.shell = (D₁.getMessage i).map Message.shell := (a₂ i).trans (a₁ i).symm
  cases hm2 : D₂.getMessage i with
  | none => rw [(hA i).mpr hm2] at hm; cases hm
  | some m₂ =>
    rw [hm, hm2] at hsh
    obtain ⟨_, hfs, hos⟩ := hB i m₁ m₂ hm hm2
    have hsh : m₂.shell = m₁.shell := Option.some.inj hsh
    have key : ∀ {l l' : List Field}, List.Forall₂ SameNamed l l' → l'.map (fun f => (f.name, f.number)) = l.map (fun f => (f.name, f.number)) := by
      intro l l' h
      induction h with
      | nil => rfl
      | cons h _ ih =>
        rw [List.map_cons, List.map_cons, ih]
        have h2 := congrArg Field.number h.1.1
        simp only at h2
        rw [h.2, h2]
    refine ⟨m₂, by rw [e₂, printed_get]; exact hm2, (show m₂.shell.name = m₁.shell.name from congrArg Message.name hsh), key hfs, ?_⟩
    have hn : m₂.oneofs.map (·.name) = m₁.oneofs.map (·.name) := by
      have := congrArg (fun m : Message => m.oneofs.map (·.name)) hsh
      simpa only [Message.shell, OneOf.shell, List.map_map, Function.comp_def] using this
    have go : ∀ {l l' : List OneOf}, List.Forall₂ (List.Forall₂ SameNamed) (l.map (·.fields)) (l'.map (·.fields)) → l'.map (·.name) = l.map (·.name) →
        l'.map (fun o => (o.name, o.fields.map fun f => (f.name, f.number))) = l.map (fun o => (o.name, o.fields.map fun f => (f.name, f.number))) := by
      intro l
      induction l with
      | nil => intro l' h _; cases l' with
        | nil => rfl
        | cons => cases h
      | cons o l ih =>
        intro l' h h'
        cases l' with
        | nil => cases h
        | cons o' l' =>
          simp only [List.map_cons] at h h' ⊢
          cases h with
          | cons ha hb =>
            injection h' with h1 h2
            rw [ih hb h2, key ha, h1]
    exact go hos hn

/-- From one schema, with any options (apart from `--add-deprecated-fields`): the messages have the same values, the generated functions
write the same bytes and read the same values, and defaults are the same. -/
theorem C109_functions (hf : NoNestedMaps D) (hdep : j₁.cfg.addDeprecatedFields = j₂.cfg.addDeprecatedFields) {C₁ C₂ : Ctx} (hD₁ : C₁.D = E₁) (hc₁ : C₁.cfg = j₁.cfg)
    (hD₂ : C₂.D = E₂) (hc₂ : C₂.cfg = j₂.cfg) (hT : C₁.T = C₂.T) (hd₁ : IsDefault C₁) (hd₂ : IsDefault C₂) (hK : SameConstants C₁ C₂) :
    (∀ k i v, WellTyped C₁ AnyValue k i v ↔ WellTyped C₂ AnyValue k i v) ∧ writeImpl C₁ = writeImpl C₂ ∧ fromReader C₁ = fromReader C₂ ∧
      ∀ i m, E₁.getMessage i = some m → C₁.dflt i = C₂.dflt i := by
  have h := same_jobs hr₁ hr₂ hE₁ hE₂ hf hdep hD₁ hc₁ hD₂ hc₂ hT hd₁ hd₂ hK
  exact ⟨wellTyped_same h, funext (writeImpl_same h), funext (fromReader_same h), fun i m hm => h.dflt i m (by rw [hD₁]; exact hm)⟩

/-- Defaults that are literals have the same meaning: a string is written `Cow::Borrowed("x")` or `"x"`. -/
theorem C109_literals (F : Rounding) {i : MessageIndex} {m₁ m₂ : Message} {k : Nat} {f₁ f₂ : Field} {s₁ s₂ : Str} (h₁ : E₁.getMessage i = some m₁)
    (h₂ : E₂.getMessage i = some m₂) (hk₁ : m₁.fields[k]? = some f₁) (hk₂ : m₂.fields[k]? = some f₂) (hs₁ : f₁.default = some s₁) (hs₂ : f₂.default = some s₂)
    (hl : literalType f₁.typ = true) : litValue F (litTy E₁ j₁.cfg f₁.typ) s₁ = litValue F (litTy E₂ j₂.cfg f₂.typ) s₂ := by
  obtain ⟨D₁, c₁, e₁⟩ := compiled_compile hr₁ hE₁
  obtain ⟨D₂, c₂, e₂⟩ := compiled_compile hr₂ hE₂
  have c₁ : (D.own j₁.cfg.owned).compile (typePath j₁.cfg) j₁.cfg = .ok D₁ := c₁
  have c₂ : (D.own j₂.cfg.owned).compile (typePath j₂.cfg) j₂.cfg = .ok D₂ := c₂
  obtain ⟨M, C₁, C₂, F₁, F₂, ⟨x1, x2, x3⟩, ⟨y1, y2, y3⟩, _, _⟩ := compile_middle c₁ c₂
  rw [e₁, printed_get] at h₁
  rw [e₂, printed_get] at h₂
  obtain ⟨m, hm, a1, _⟩ := (finish_via x1 x2 x3).message h₁
  obtain ⟨m', hm', b1, _⟩ := (finish_via y1 y2 y3).message h₂
  cases hm.symm.trans hm'
  rw [a1, List.getElem?_map] at hk₁
  rw [b1, List.getElem?_map] at hk₂
  obtain ⟨f, hf, rfl⟩ := Option.map_eq_some_iff.mp hk₁
  obtain ⟨f', hf', rfl⟩ := Option.map_eq_some_iff.mp hk₂
  cases hf.symm.trans hf'
  rw [finish_default] at hs₁ hs₂
  rw [finish_typ] at hl ⊢
  rw [finish_typ]
  obtain ⟨s, hs, rfl⟩ := Option.map_eq_some_iff.mp hs₁
  obtain ⟨s', hs', rfl⟩ := Option.map_eq_some_iff.mp hs₂
  cases hs.symm.trans hs'
  exact literal_same F _ _ E₁ E₂ j₁.cfg j₂.cfg hl s

/-- If the defaults of the schema are literals that Rust accepts, they have the same meaning in both programs. -/
theorem C109_same_defaults (F : Rounding) {K : Ty → Str → RVal} (hK : ∀ t s v, litValue F t s = some v → K t s = v)
    (hl : ∀ i m, E₁.getMessage i = some m → ∀ f ∈ m.fields, ∀ s, f.default = some s → literalType f.typ = true ∧ (litValue F (litTy E₁ j₁.cfg f.typ) s).isSome = true) :
    SameDefaults E₁ j₁.cfg K E₂ j₂.cfg K := by
  intro i m m' k f g s s' h1 h2 h3 h4 h5 h6
  obtain ⟨a, b⟩ := hl i m h1 f (List.mem_of_getElem? h3) s h5
  have h := C109_literals hr₁ hr₂ hE₁ hE₂ F h1 h2 h3 h4 h5 h6 a
  obtain ⟨v, hv⟩ := Option.isSome_iff_exists.mp b
  rw [hK _ _ v hv, hK _ _ v (h ▸ hv)]

end

/-- The meaning of a default is that of its text. -/
theorem generates_const {C : Ctx} {P : Prog} {dflt : Path → RVal} (G : Generates C P dflt) {i : MessageIndex} {m : Message} (hm : C.D.getMessage i = some m) {f : Field}
    (hf : f ∈ m.fields) (hv : f.visible C.cfg = true) {s : Str} (hs : f.default = some s) : C.const f.typ s = P.const (litTy C.D C.cfg f.typ) s := by
  obtain ⟨d, hd, _⟩ := G.structs i m hm
  obtain ⟨fs, hfs, _⟩ := Option.bind_eq_some_iff.mp hd
  obtain ⟨ts, hts, _⟩ := Option.bind_eq_some_iff.mp hfs
  obtain ⟨p, hp⟩ := mapM_mem_some hts (List.mem_filter.mpr ⟨hf, hv⟩)
  obtain ⟨t, ht, _⟩ := Option.map_eq_some_iff.mp hp
  obtain ⟨T, hT, _⟩ := Option.map_eq_some_iff.mp ht
  rw [← G.const i m hm f hf s hs T hT]
  unfold litTy
  cases hty : f.typ <;> simp only [hty] at hT ⊢ <;> simp only [hT, Option.map_some, Option.getD_some]

/-- Two runs of pb-rs on the same schema, with different options (but both with, or both without, `--add-deprecated-fields`). Both files have
the items of a program, and these two programs have the same values: messages have the same defaults, are written as the same bytes, and
every input is read as the same value, or fails in the same way. -/
theorem C109_programs {junk₁ junk₂ : Str} {n₁ n₂ : Nat} {j₁ j₂ : Job} {d₁ d₁' d₂ d₂' : Disk} {D E₁ E₂ : FileDescriptor} (hn₁ : j₁.noOutput = false)
    (hn₂ : j₂.noOutput = false) (h₁ : writeProto junk₁ n₁ j₁ d₁ = (.ok (), d₁')) (h₂ : writeProto junk₂ n₂ j₂ d₂ = (.ok (), d₂'))
    (hr₁ : readProtoFile d₁.file j₁.search n₁ j₁.inFile = .ok D) (hr₂ : readProtoFile d₂.file j₂.search n₂ j₂.inFile = .ok D)
    (hdep : j₁.cfg.addDeprecatedFields = j₂.cfg.addDeprecatedFields) (hf : NoNestedMaps D) (hN : Numbered D) (hK : NestedPackedOk D)
    (hE₁ : j₁.compiled n₁ d₁ = some E₁) (hE₂ : j₂.compiled n₂ d₂ = some E₂)
    (hI₁ : ∀ t ∈ E₁.messages, t.imported = true → ∃ x, t.write E₁ j₁.cfg = .ok x) (hI₂ : ∀ t ∈ E₂.messages, t.imported = true → ∃ x, t.write E₂ j₂.cfg = .ok x)
    (hX₁ : Distinct E₁ j₁.cfg) (hX₂ : Distinct E₂ j₂.cfg)
    (hcow₁ : ∀ i m, E₁.getMessage i = some m → ∀ f ∈ m.fields, f.visible j₁.cfg = true → isPackedFixed f = true → j₁.cfg.dontUseCow = false)
    (hcow₂ : ∀ i m, E₂.getMessage i = some m → ∀ f ∈ m.fields, f.visible j₂.cfg = true → isPackedFixed f = true → j₂.cfg.dontUseCow = false)
    {K₁ K₂ : Ty → Str → RVal} (hL₁ : Literals E₁ j₁.cfg K₁) (hL₂ : Literals E₂ j₂.cfg K₂) (hS : SameDefaults E₁ j₁.cfg K₁ E₂ j₂.cfg K₂) (T : Target) :
    ∃ p₁ t₁ C₁ P₁ dflt₁ p₂ t₂ C₂ P₂ dflt₂, j₁.out n₁ d₁ = some p₁ ∧ d₁'.file p₁ = some (Doc.str t₁) ∧ j₂.out n₂ d₂ = some p₂ ∧ d₂'.file p₂ = some (Doc.str t₂) ∧
      (C₁.T = T ∧ C₁.D = E₁ ∧ C₁.cfg = j₁.cfg ∧ Generates C₁ P₁ dflt₁ ∧ P₁.IsDefault T dflt₁ ∧ P₁.const = K₁) ∧
      (C₂.T = T ∧ C₂.D = E₂ ∧ C₂.cfg = j₂.cfg ∧ Generates C₂ P₂ dflt₂ ∧ P₂.IsDefault T dflt₂ ∧ P₂.const = K₂) ∧
      (∀ i is t m, E₁.messages[i]? = some t → t.imported = false → E₁.getMessage (i :: is) = some m →
        ∃ s l, P₁.structs (messagePath E₁ m) = some s ∧ HasStruct t₁ m.name m.isUnit l (deprecations j₁.cfg m) s ∧
          ∀ o ∈ m.oneofs, ∃ l vs, P₁.oneofs (oneofPath E₁ o) = some vs ∧ HasOneof t₁ o.name l ((o.shown j₁.cfg).map (·.deprecated)) vs) ∧
      (∀ i is t m, E₂.messages[i]? = some t → t.imported = false → E₂.getMessage (i :: is) = some m →
        ∃ s l, P₂.structs (messagePath E₂ m) = some s ∧ HasStruct t₂ m.name m.isUnit l (deprecations j₂.cfg m) s ∧
          ∀ o ∈ m.oneofs, ∃ l vs, P₂.oneofs (oneofPath E₂ o) = some vs ∧ HasOneof t₂ o.name l ((o.shown j₂.cfg).map (·.deprecated)) vs) ∧
      ∀ i m₁, E₁.getMessage i = some m₁ → ∃ m₂, E₂.getMessage i = some m₂ ∧ m₂.name = m₁.name ∧
        m₂.fields.map (fun f => (f.name, f.number)) = m₁.fields.map (fun f => (f.name, f.number)) ∧
        m₂.oneofs.map (fun o => (o.name, o.fields.map fun f => (f.name, f.number))) = m₁.oneofs.map (fun o => (o.name, o.fields.map fun f => (f.name, f.number))) ∧
        dflt₁ (messagePath E₁ m₁) = dflt₂ (messagePath E₂ m₂) ∧
        (∀ fuel, P₁.fromReader T dflt₁ fuel (messagePath E₁ m₁) = P₂.fromReader T dflt₂ fuel (messagePath E₂ m₂)) ∧
        ∀ k v, (WellTyped C₁ AnyValue k i v ↔ WellTyped C₂ AnyValue k i v) ∧ (WellTyped C₁ AnyValue k i v →
          (P₁.writeImpl T dflt₁ k (messagePath E₁ m₁)).get_size v = (P₂.writeImpl T dflt₂ k (messagePath E₂ m₂)).get_size v ∧
          ∀ (σ : Type) [WriterBackend σ], (P₁.writeImpl T dflt₁ k (messagePath E₁ m₁)).write_message v σ = (P₂.writeImpl T dflt₂ k (messagePath E₂ m₂)).write_message v σ) := by
  obtain ⟨p₁, t₁, C₁, P₁, dflt₁, a1, a2, a3, a4, a5, a6, G₁, aD, aS, aP, _, a7⟩ := run_program hn₁ h₁ hr₁ hf hN hK hE₁ hI₁ hX₁ hcow₁ hL₁ T
  obtain ⟨p₂, t₂, C₂, P₂, dflt₂, b1, b2, b3, b4, b5, b6, G₂, bD, bS, bP, _, b7⟩ := run_program hn₂ h₂ hr₂ hf hN hK hE₂ hI₂ hX₂ hcow₂ hL₂ T
  have hC : SameConstants C₁ C₂ := by
    intro i m m' k f g s s' e1 e2 e3 e4 e5 e6 e7
    have hv : g.visible C₂.cfg = true := by
      obtain ⟨D₁, c₁, e₁⟩ := compiled_compile hr₁ hE₁
      obtain ⟨D₂, c₂, e₂⟩ := compiled_compile hr₂ hE₂
      have c₁ : (D.own j₁.cfg.owned).compile (typePath j₁.cfg) j₁.cfg = .ok D₁ := c₁
      have c₂ : (D.own j₂.cfg.owned).compile (typePath j₂.cfg) j₂.cfg = .ok D₂ := c₂
      have x1 := e1
      have x2 := e2
      rw [a4, e₁, printed_get] at x1
      rw [b4, e₂, printed_get] at x2
      obtain ⟨_, hfs, _⟩ := (compiled_pairs c₁ c₂).2 i m m' x1 x2
      have hsf : SameField f g := by
        rcases QP.Gen.forall₂_get (a3.trans b3.symm) hfs k with ⟨h, _⟩ | ⟨a, b, h, h', r⟩
        · rw [h] at e3; cases e3
        · rw [e3] at h; rw [e4] at h'; cases h; cases h'; exact r
      have hd : g.deprecated = f.deprecated := by rw [hsf.1]
      rw [Field.visible, hd, b5, ← hdep, ← a5]
      exact e5
    rw [generates_const G₁ e1 (List.mem_of_getElem? e3) e5 e6, generates_const G₂ e2 (List.mem_of_getElem? e4) hv e7, a4, a5, a6, b4, b5, b6]
    exact hS i m m' k f g s s' (by rw [← a4]; exact e1) (by rw [← b4]; exact e2) e3 e4 e6 e7
  obtain ⟨c1, c2, c3, c4⟩ := C109_functions hr₁ hr₂ hE₁ hE₂ hf hdep a4 a5 b4 b5 (a3.trans b3.symm)
    (C78_default G₁ aS aP (by rw [a3]; exact aD)) (C78_default G₂ bS bP (by rw [b3]; exact bD)) hC
  refine ⟨p₁, t₁, C₁, P₁, dflt₁, p₂, t₂, C₂, P₂, dflt₂, a1, a2, b1, b2, ⟨a3, a4, a5, G₁, aD, a6⟩, ⟨b3, b4, b5, G₂, bD, b6⟩, a7, b7, ?_⟩
  intro i m₁ hm₁
  obtain ⟨m₂, hm₂, q1, q2, q3⟩ := C109_names hr₁ hr₂ hE₁ hE₂ hm₁
  have g₁ : C₁.D.getMessage i = some m₁ := by rw [a4]; exact hm₁
  have g₂ : C₂.D.getMessage i = some m₂ := by rw [b4]; exact hm₂
  refine ⟨m₂, hm₂, q1, q2, q3, ?_, ?_, ?_⟩
  · rw [← a4, ← b4, G₁.default i m₁ g₁, G₂.default i m₂ g₂]
    exact c4 i m₁ hm₁
  · intro fuel
    have r₁ := C78_read G₁ aS aP (by rw [a3]; exact aD) fuel i m₁ g₁
    have r₂ := C78_read G₂ bS bP (by rw [b3]; exact bD) fuel i m₂ g₂
    rw [a3, a4] at r₁
    rw [b3, b4] at r₂
    rw [r₁, r₂, c3]
  · intro k v
    refine ⟨c1 k i v, fun hv => ?_⟩
    obtain ⟨r1, r2⟩ := C78_write G₁ aS aP k i m₁ g₁ v hv
    obtain ⟨s1, s2⟩ := C78_write G₂ bS bP k i m₂ g₂ v ((c1 k i v).mp hv)
    rw [a3, a4] at r1 r2
    rw [b3, b4] at s1 s2
    exact ⟨by rw [r1, s1, c2], fun σ _ => by rw [r2 σ, s2 σ, c2]⟩

/-! ## An example -/

namespace OptionsExample
open RunExample

/-- A recursive message with two defaults, a map, a oneof and a packed field. -/
def proto : Str := c! "message Node { required int32 id = 1 [default = 42]; optional string name = 2 [default = \"x\"]; repeated sint32 ys = 4 [packed = true]; map<string, bytes> props = 6; optional Node child = 7; oneof pick { bool a = 16; string b = 17; } }"

/-- No options, and many. -/
def job₁ : Job := { inFile := c! "ex.proto", outFile := c! "ex.rs" }
def job₂ : Job :=
  { inFile := c! "ex.proto", outFile := c! "b/other.rs",
    cfg := { dontUseCow := true, errorCycle := true, generateGetters := true, headers := false, customStructDerive := [c! "Eq"], customRepr := some (c! "u8"), genInfo := true } }
def before : Disk := disk [(c! "ex.proto", proto)] [c! "b"]

/-- There are no floating-point constants. -/
def F : Rounding := ⟨fun _ _ _ => 0, fun _ _ _ => 0⟩

/-- What a literal means. -/
def lits (t : Ty) (s : Str) : RVal := (litValue F t s).getD .none

def okRead (D : FileDescriptor) : Bool :=
  decide (∀ p ∈ Message.preorderAll [] 0 D.messages, (∀ f ∈ p.2.allFields, f.typ.flat = true) ∧
    (∀ f ∈ p.2.allFields, 0 < f.number ∧ f.number < 2 ^ 29) ∧ (p.2.allFields.map (·.number)).Nodup ∧
    (1 < p.1.length → ∀ f ∈ p.2.allFields, f.packed ≠ some true))

def okPrinted (j : Job) (E : FileDescriptor) : Bool :=
  distinctB E j.cfg && decide (∀ t ∈ E.messages, t.imported = false) && (enumList E).isEmpty &&
    decide (∀ p ∈ Message.preorderAll [] 0 E.messages, ∀ f ∈ p.2.fields, isPackedFixed f = false ∧ (f.default.isSome = true →
      (f.typ = .int32 ∧ f.default = some (c! "42i32")) ∨ (f.typ = .stringCow ∧ f.default = some (c! "Cow::Borrowed(\"x\")")) ∨ (f.typ = .string_ ∧ f.default = some (c! "\"x\"")))) &&
    (E.getMessage [0]).isSome

/-- Both jobs meet the conditions of `C109_programs`. -/
theorem conditions {j : Job} (hj : j = job₁ ∨ j = job₂) : ∃ E d', writeProto [] 1 j before = (.ok (), d') ∧ j.compiled 1 before = some E ∧
    (∀ t ∈ E.messages, t.imported = true → ∃ x, t.write E j.cfg = .ok x) ∧ Distinct E j.cfg ∧
    (∀ i m, E.getMessage i = some m → ∀ f ∈ m.fields, f.visible j.cfg = true → isPackedFixed f = true → j.cfg.dontUseCow = false) ∧
    Literals E j.cfg lits ∧ (∃ m, E.getMessage [0] = some m) ∧
    ∀ i m, E.getMessage i = some m → ∀ f ∈ m.fields, ∀ s, f.default = some s → literalType f.typ = true ∧ (litValue F (litTy E j.cfg f.typ) s).isSome = true := by
  have h0 : (writeProto [] 1 j before).1.isOk = true := by rcases hj with rfl | rfl <;> decide +kernel
  have h2 : (match j.compiled 1 before with | some E => okPrinted j E | none => false) = true := by rcases hj with rfl | rfl <;> decide +kernel
  cases hE : j.compiled 1 before with
  | none => rw [hE] at h2; cases h2
  | some E =>
    rw [hE] at h2
    cases hw : writeProto [] 1 j before with
    | mk r d' =>
      rw [hw] at h0
      cases r with
      | error e => cases h0
      | ok u =>
        have h2 : okPrinted j E = true := h2
        unfold okPrinted at h2
        simp only [Bool.and_eq_true, decide_eq_true_eq] at h2
        obtain ⟨⟨⟨⟨a1, a2⟩, a3⟩, a4⟩, a5⟩ := h2
        have a4 := fun i m hm => a4 (i, m) ((mem_preorder_file E i m).mpr hm)
        have key : ∀ i m, E.getMessage i = some m → ∀ f ∈ m.fields, ∀ s, f.default = some s →
            (f.typ = .int32 ∧ s = c! "42i32") ∨ (f.typ = .stringCow ∧ s = c! "Cow::Borrowed(\"x\")") ∨ (f.typ = .string_ ∧ s = c! "\"x\"") := by
          intro i m hm f hf s hs
          have := (a4 i m hm f hf).2 (by rw [hs]; rfl)
          rw [hs] at this
          simpa only [Option.some.injEq] using this
        refine ⟨E, d', rfl, rfl, fun t ht hi => ?_, distinct_of a1, ?_, ⟨?_, ?_⟩, Option.isSome_iff_exists.mp a5, ?_⟩
        · rw [a2 t ht] at hi; cases hi
        · intro i m hm f hf _ hp
          rw [(a4 i m hm f hf).1] at hp
          cases hp
        · intro e en s he hs
          have := mem_enumList he
          rw [List.isEmpty_iff.mp a3] at this
          cases this
        · intro idx m hm f hf s hs _ _ C hC
          rcases key idx m hm f hf s hs with ⟨h, rfl⟩ | ⟨h, rfl⟩ | ⟨h, rfl⟩ <;> rw [h]
          · exact ⟨_, rfl⟩
          · exact ⟨_, rfl, [0x78], by simp [Spec.scalar], rfl⟩
          · exact ⟨_, rfl, [0x78], by simp [Spec.scalar], rfl⟩
        · intro i m hm f hf s hs
          rcases key i m hm f hf s hs with ⟨h, rfl⟩ | ⟨h, rfl⟩ | ⟨h, rfl⟩ <;> rw [h] <;> exact ⟨rfl, rfl⟩

/-- Both runs print a program with the struct `Node`; the two programs read every input alike. -/
theorem C109_example (T : Target) : ∃ (d₁' d₂' : Disk) (E₁ E₂ : FileDescriptor) (p₁ : Str) (t₁ : Doc) (P₁ : Prog) (dflt₁ : Path → RVal) (p₂ : Str) (t₂ : Doc) (P₂ : Prog) (dflt₂ : Path → RVal) (m₁ m₂ : Message), writeProto [] 1 job₁ before = (.ok (), d₁') ∧
    writeProto [] 1 job₂ before = (.ok (), d₂') ∧ d₁'.file p₁ = some (Doc.str t₁) ∧ d₂'.file p₂ = some (Doc.str t₂) ∧
    E₁.getMessage [0] = some m₁ ∧ E₂.getMessage [0] = some m₂ ∧ (P₁.structs (messagePath E₁ m₁)).isSome = true ∧ (P₂.structs (messagePath E₂ m₂)).isSome = true ∧
    P₁.IsDefault T dflt₁ ∧ P₂.IsDefault T dflt₂ ∧
    ∀ fuel, P₁.fromReader T dflt₁ fuel (messagePath E₁ m₁) = P₂.fromReader T dflt₂ fuel (messagePath E₂ m₂) := by
  obtain ⟨E₁, d₁', a1, a2, a3, a4, a5, a6, ⟨m₁, a7⟩, a8⟩ := conditions (Or.inl rfl)
  obtain ⟨E₂, d₂', b1, b2, b3, b4, b5, b6, _, _⟩ := conditions (Or.inr rfl)
  have h1 : (match readProtoFile before.file job₁.search 1 job₁.inFile with | .ok D => okRead D | .error _ => false) = true := by decide +kernel
  cases hD : readProtoFile before.file job₁.search 1 job₁.inFile with
  | error e => rw [hD] at h1; cases h1
  | ok D =>
    rw [hD] at h1
    have h1 : okRead D = true := h1
    unfold okRead at h1
    simp only [decide_eq_true_eq] at h1
    have h1 := fun i m hm => h1 (i, m) ((mem_preorder_file D i m).mpr hm)
    have hD₂ : readProtoFile before.file job₂.search 1 job₂.inFile = .ok D := hD
    have hS := C109_same_defaults hD hD₂ a2 b2 F (K := lits) (fun t s v h => by unfold lits; rw [h]; rfl) a8
    obtain ⟨p₁, t₁, C₁, P₁, dflt₁, p₂, t₂, C₂, P₂, dflt₂, _, x2, _, x4, x5, x6, _, _, x9⟩ := C109_programs rfl rfl a1 b1 hD hD₂ rfl
      (fun i m hm => (h1 i m hm).1) ⟨fun i m hm => (h1 i m hm).2.1, fun i m hm => (h1 i m hm).2.2.1⟩
      (fun i m hi hm f hf hp => absurd hp ((h1 i m hm).2.2.2 hi f hf)) a2 b2 a3 b3 a4 b4 a5 b5 a6 b6 hS T
    obtain ⟨m₂, q1, _, _, _, _, q5, _⟩ := x9 [0] m₁ a7
    obtain ⟨_, y2, _, y4, y5, _⟩ := x5
    obtain ⟨_, z2, _, z4, z5, _⟩ := x6
    obtain ⟨s₁, _, hs₁⟩ := y4.structs [0] m₁ (by rw [y2]; exact a7)
    obtain ⟨s₂, _, hs₂⟩ := z4.structs [0] m₂ (by rw [z2]; exact q1)
    rw [y2] at hs₁
    rw [z2] at hs₂
    exact ⟨d₁', d₂', E₁, E₂, p₁, t₁, P₁, dflt₁, p₂, t₂, P₂, dflt₂, m₁, m₂, a1, b1, x2, x4, a7, q1, by rw [hs₁]; rfl, by rw [hs₂]; rfl, y5, z5, q5⟩

/-- `--add-deprecated-fields` changes the format: without it a deprecated field is neither written nor read. -/
theorem C109_deprecated : ∃ (d : Disk) (j : Job) (t t' : Str), d.file j.inFile = some (c! "message M { required int32 a = 1 [deprecated = true]; }") ∧
    j.cfg.addDeprecatedFields = false ∧ (writeProto [] 1 j d).1.isOk = true ∧ (writeProto [] 1 { j with cfg := { j.cfg with addDeprecatedFields := true } } d).1.isOk = true ∧
    (writeProto [] 1 j d).2.file (c! "x.rs") = some t ∧ (writeProto [] 1 { j with cfg := { j.cfg with addDeprecatedFields := true } } d).2.file (c! "x.rs") = some t' ∧
    c! "Clone)]\npub struct M {\n}" <:+: t ∧ c! "    fn get_size(&self) -> usize {\n        0\n    }" <:+: t ∧
    c! "    #[deprecated]\n    pub a: i32,\n}" <:+: t' ∧ c! "    fn get_size(&self) -> usize {\n        0\n        + 1 + sizeof_varint(*(&self.a) as u64)\n    }" <:+: t' := by
  refine ⟨disk [(c! "x.proto", c! "message M { required int32 a = 1 [deprecated = true]; }")] [], { inFile := c! "x.proto", outFile := c! "x.rs" }, 
    ((writeProto [] 1 { inFile := c! "x.proto", outFile := c! "x.rs" } (disk [(c! "x.proto", c! "message M { required int32 a = 1 [deprecated = true]; }")] [])).2.file (c! "x.rs")).getD [],
    ((writeProto [] 1 { inFile := c! "x.proto", outFile := c! "x.rs", cfg := { addDeprecatedFields := true } } (disk [(c! "x.proto", c! "message M { required int32 a = 1 [deprecated = true]; }")] [])).2.file (c! "x.rs")).getD [],
    by decide +kernel, rfl, by decide +kernel, by decide +kernel, by decide +kernel, by decide +kernel, by decide +kernel, by decide +kernel, by decide +kernel, by decide +kernel⟩

end OptionsExample

end QP.Rust
