import Verif.Proofs.Enums
import Verif.Props.Names
import Verif.Props.Run
import Verif.Props.Imports
import Verif.Props.Generated
set_option linter.unusedVariables false
/-!
# Generated enums (C80)
-/

namespace QP.Rust
open QP.Pbrs QP.Pbrs.Grammar

/-- pb-rs run on a file leaves on the disk a text with, for each enum that the file declares (anywhere), the enum and its
implementations. -/
theorem C80_written {junk : Str} {n : Nat} {j : Job} {d d' : Disk} {src r : Str} {F : Parse.File} (hn : j.noOutput = false)
    (h : writeProto junk n j d = (.ok (), d')) (hs : d.file j.inFile = some src) (hp : Parse.readProto src = .ok F r) :
    ∃ p text, j.out n d = some p ∧ d'.file p = some text.str ∧
      ∀ e en, F.desc.getEnum e = some en → en.fields ≠ [] → HasEnum text (enumItem en.name en.fields) := by
  obtain ⟨p, t, hop, ht, hd⟩ := C73_written hn h
  unfold Job.text at ht
  obtain ⟨E, hE, ht⟩ := Option.bind_eq_some_iff.mp ht
  have hE' := hE
  unfold Job.compiled compileFile at hE
  cases hr : readProtoFile d.file j.search n j.inFile with
  | error e => simp only [hr] at hE; cases hE
  | ok D =>
    simp only [hr] at hE
    cases hc : ({ D with owned := j.cfg.owned } : FileDescriptor).compile (typePath j.cfg) j.cfg with
    | error e => rw [hc] at hE; cases hE
    | ok D' =>
      rw [hc] at hE
      cases hE
      cases hw : (D'.printed j.cfg).write j.cfg (splitSlash j.inFile).2 (servicesOf ((d.file j.inFile).getD [])) with
      | error e => simp only [hw] at ht; cases ht
      | ok text =>
        simp only [hw] at ht
        cases ht
        refine ⟨p, text, hop, hd, fun e en he hne => ?_⟩
        obtain ⟨D0, imps, ms, es, hrd, h1, _, h2, _, _⟩ := read_own hr
        obtain ⟨text', F', r', ht', hF', _, rfl⟩ := reads_parsed hrd
        rw [hs] at ht'
        cases ht'
        rw [hp] at hF'
        cases hF'
        have hN : FileNamed F.desc := Parse.readProto_named hp
        exact file_enums (D := { D with owned := j.cfg.owned }) (F := { F.desc with module := if F.desc.package.isEmpty then getFileStem j.inFile else F.desc.package })
          hN.messages hN.enums h1 h2 hc hw he hne

/-- Renaming keywords keeps the names apart: they are distinct, and no two are `k` and `k_pb`. -/
def NoClash (names : List Str) : Prop := names.Nodup ∧ ∀ k ∈ rustKeywords, ¬ (k ∈ names ∧ k ++ c! "_pb" ∈ names)

theorem word_no_dot {w : Str} (h : Word w) : '.' ∉ w := by
  intro hd
  rcases h.chars '.' hd with h | h
  · revert h; decide
  · revert h; decide

theorem sanitize_word {w : Str} (h : '.' ∉ w) : sanitizeKeyword w = sanitizeSegment w := by
  rw [sanitizeKeyword_eq, splitDot_of_no_dot h]; rfl

theorem sanitize_keyword {w : Str} (h : '.' ∉ w) (hk : w ∈ rustKeywords) : sanitizeKeyword w = w ++ c! "_pb" := by
  rw [sanitize_word h]
  unfold sanitizeSegment
  rw [if_pos (by simpa using hk)]
  rfl

theorem sanitize_other {w : Str} (h : '.' ∉ w) (hk : w ∉ rustKeywords) : sanitizeKeyword w = w := by
  rw [sanitize_word h]
  unfold sanitizeSegment
  rw [if_neg (by simpa using hk)]

theorem sanitize_ne_keyword {w : Str} (h : '.' ∉ w) : sanitizeKeyword w ∉ rustKeywords := by
  rw [sanitize_word h]; exact sanitizeSegment_not_keyword w

theorem nodup_map {α β : Type} {f : α → β} {l : List α} : (l.map f).Nodup ↔ l.Nodup ∧ ∀ a ∈ l, ∀ b ∈ l, f a = f b → a = b := by
  induction l with
  | nil => simp
  | cons a l ih =>
    simp only [List.map_cons, List.nodup_cons, ih, List.mem_map, not_exists, not_and]
    constructor
    · rintro ⟨h1, h2, h3⟩
      refine ⟨⟨fun ha => h1 a ha rfl, h2⟩, ?_⟩
      intro b hb c hc e
      rcases List.mem_cons.mp hb with hb | hb <;> rcases List.mem_cons.mp hc with hc | hc
      · rw [hb, hc]
      · rw [hb] at e; exact absurd e.symm (h1 c hc)
      · rw [hc] at e; exact absurd e (h1 b hb)
      · exact h3 b hb c hc e
    · rintro ⟨⟨h1, h2⟩, h3⟩
      refine ⟨fun b hb e => ?_, h2, fun b hb c hc => h3 b (by simp [hb]) c (by simp [hc])⟩
      have := h3 b (by simp [hb]) a (by simp) e
      exact h1 (this ▸ hb)

theorem nodup_sanitize {names : List Str} (hd : ∀ w ∈ names, '.' ∉ w) : (names.map sanitizeKeyword).Nodup ↔ NoClash names := by
  rw [nodup_map]
  unfold NoClash
  refine and_congr_right fun _ => ⟨fun h k hk ⟨h1, h2⟩ => ?_, fun h a ha b hb e => ?_⟩
  · have e1 := sanitize_keyword (hd k h1) hk
    have hp : k ++ c! "_pb" ∉ rustKeywords := by
      rw [← e1]; exact sanitize_ne_keyword (hd k h1)
    have := h k h1 _ h2 (by rw [e1, sanitize_other (hd _ h2) hp])
    have := congrArg List.length this
    simp at this
  · by_cases ka : a ∈ rustKeywords <;> by_cases kb : b ∈ rustKeywords
    · rw [sanitize_keyword (hd a ha) ka, sanitize_keyword (hd b hb) kb] at e
      exact List.append_cancel_right e
    · rw [sanitize_keyword (hd a ha) ka, sanitize_other (hd b hb) kb] at e
      exact absurd ⟨ha, e ▸ hb⟩ (h a ka)
    · rw [sanitize_other (hd a ha) ka, sanitize_keyword (hd b hb) kb] at e
      exact absurd ⟨hb, e ▸ ha⟩ (h b kb)
    · rw [sanitize_other (hd a ha) ka, sanitize_other (hd b hb) kb] at e
      exact e

theorem variant_pair (E : EnumItem) (a b : Str) :
    E.variant [a, b] = if a = E.name ∧ b ∈ E.variants.map (·.1) then some b else none := rfl

theorem variant_own {name : Str} {fs : List (Str × Int)} {f : Str × Int} (hf : f ∈ fs) :
    (enumItem name fs).variant [sanitizeKeyword name, sanitizeKeyword f.1] = some (sanitizeKeyword f.1) := by
  rw [variant_pair, if_pos]
  refine ⟨rfl, ?_⟩
  simp only [enumItem, List.map_map]
  exact List.mem_map.mpr ⟨f, hf, rfl⟩

/-- Which of the enums are accepted by the Rust compiler: those whose numbers are distinct, whose variants do not clash after
renaming, and neither whose name nor whose first variant is a keyword. -/
theorem C80_accepted {name : Str} {f : Str × Int} {fs : List (Str × Int)} (hn : Word name) (hw : ∀ g ∈ f :: fs, Word g.1) :
    (enumItem name (f :: fs)).Accepted ↔
      NoClash ((f :: fs).map (·.1)) ∧ ((f :: fs).map (·.2)).Nodup ∧ name ∉ rustKeywords ∧ f.1 ∉ rustKeywords := by
  have hd : ∀ w ∈ (f :: fs).map (·.1), '.' ∉ w := by
    intro w hx
    obtain ⟨g, hg, rfl⟩ := List.mem_map.mp hx
    exact word_no_dot (hw g hg)
  have e1 : (enumItem name (f :: fs)).variants.map (·.1) = ((f :: fs).map (·.1)).map sanitizeKeyword := by
    simp only [enumItem, List.map_map]; rfl
  have e2 : (enumItem name (f :: fs)).variants.map (·.2) = (f :: fs).map (·.2) := by
    simp only [enumItem, List.map_map]; rfl
  have e3 : ((enumItem name (f :: fs)).variant (enumItem name (f :: fs)).default).isSome = true ↔
      name ∉ rustKeywords ∧ f.1 ∉ rustKeywords := by
    have : (enumItem name (f :: fs)).default = [name, f.1] := rfl
    rw [this, variant_pair, e1]
    have e4 : (enumItem name (f :: fs)).name = sanitizeKeyword name := rfl
    rw [e4]
    constructor
    · intro h
      split at h
      · rename_i hc
        refine ⟨?_, ?_⟩
        · rw [hc.1]; exact sanitize_ne_keyword (word_no_dot hn)
        · obtain ⟨w, hw1, hw2⟩ := List.mem_map.mp hc.2
          rw [← hw2]; exact sanitize_ne_keyword (hd w hw1)
      · cases h
    · rintro ⟨h1, h2⟩
      rw [if_pos]
      · rfl
      · refine ⟨(sanitize_other (word_no_dot hn) h1).symm, List.mem_map.mpr ⟨f.1, by simp, ?_⟩⟩
        exact sanitize_other (word_no_dot (hw f (by simp))) h2
  constructor
  · intro h
    exact ⟨(nodup_sanitize hd).mp (e1 ▸ h.names), e2 ▸ h.numbers, (e3.mp h.default).1, (e3.mp h.default).2⟩
  · rintro ⟨h1, h2, h3, h4⟩
    refine ⟨e1 ▸ (nodup_sanitize hd).mpr h1, e2 ▸ h2, e3.mpr ⟨h3, h4⟩, ?_, ?_⟩
    · intro a ha
      obtain ⟨g, hg, rfl⟩ := List.mem_map.mp ha
      simp only [variant_own hg, Option.isSome_some]
    · intro a ha
      obtain ⟨g, hg, rfl⟩ := List.mem_map.mp ha
      simp only [variant_own hg, Option.isSome_some]

section
variable {name : Str} {f : Str × Int} {fs : List (Str × Int)}

theorem find_unique {α β : Type} [BEq β] [LawfulBEq β] {l : List α} {key : α → β} (h : (l.map key).Nodup) {a : α} (ha : a ∈ l) :
    l.find? (fun x => key x == key a) = some a := by
  induction l with
  | nil => cases ha
  | cons b l ih =>
    simp only [List.map_cons, List.nodup_cons] at h
    rcases List.mem_cons.mp ha with rfl | ha
    · simp
    · rw [List.find?_cons]
      have : (key b == key a) = false := by
        cases hx : key b == key a with
        | false => rfl
        | true =>
          have := eq_of_beq hx
          exact absurd (List.mem_map.mpr ⟨a, ha, this.symm⟩) h.1
      rw [this]
      exact ih h.2 ha

theorem first_listed (hA : (enumItem name (f :: fs)).Accepted) :
    name = sanitizeKeyword name ∧ f.1 ∈ (enumItem name (f :: fs)).variants.map (·.1) := by
  have h := hA.default
  have e : (enumItem name (f :: fs)).default = [name, f.1] := rfl
  rw [e, variant_pair] at h
  split at h
  · assumption
  · cases h

/-- `default()` is the first variant. -/
theorem C80_default (hA : (enumItem name (f :: fs)).Accepted) : (enumItem name (f :: fs)).defaultFn = some f.1 := by
  have e : (enumItem name (f :: fs)).default = [name, f.1] := rfl
  unfold EnumItem.defaultFn
  rw [e, variant_pair]
  exact if_pos (first_listed hA)

/-- `from(i)` for the number of a variant is that variant; for another number it is the first variant. -/
theorem C80_from_i32 (hA : (enumItem name (f :: fs)).Accepted) :
    (∀ g ∈ f :: fs, (enumItem name (f :: fs)).fromI32Fn g.2 = some (sanitizeKeyword g.1)) ∧
    (∀ i, (∀ g ∈ f :: fs, g.2 ≠ i) → (enumItem name (f :: fs)).fromI32Fn i = some f.1) := by
  have hnum : ((f :: fs).map (·.2)).Nodup := by
    have := hA.numbers
    simpa [enumItem, List.map_map, Function.comp_def] using this
  constructor
  · intro g hg
    unfold EnumItem.fromI32Fn
    have : (enumItem name (f :: fs)).fromI32.find? (fun a => a.1 == g.2) = some (g.2, [sanitizeKeyword name, sanitizeKeyword g.1]) := by
      have h := find_unique hnum hg
      simp only [enumItem, List.find?_map]
      have h2 : ((fun a : Int × Path => a.1 == g.2) ∘ fun f : Str × Int => (f.2, [sanitizeKeyword name, sanitizeKeyword f.1])) = fun x => x.2 == g.2 := rfl
      rw [h2, h]; rfl
    rw [this]
    exact variant_own hg
  · intro i hi
    unfold EnumItem.fromI32Fn
    have : (enumItem name (f :: fs)).fromI32.find? (fun a => a.1 == i) = none := by
      rw [List.find?_eq_none]
      intro a ha
      obtain ⟨g, hg, rfl⟩ := List.mem_map.mp ha
      simp only [beq_iff_eq]
      exact hi g hg
    rw [this]
    exact C80_default hA

/-- A variant `as i32` is its number. -/
theorem C80_as_i32 (hA : (enumItem name (f :: fs)).Accepted) :
    ∀ g ∈ f :: fs, (enumItem name (f :: fs)).asI32 (sanitizeKeyword g.1) = some g.2 := by
  intro g hg
  unfold EnumItem.asI32
  have key : ∀ (l : List (Str × Int)), (l.map (·.1)).Nodup → ∀ x ∈ l, l.lookup x.1 = some x.2 := by
    intro l
    induction l with
    | nil => intro _ x hx; cases hx
    | cons a l ih =>
      intro h x hx
      simp only [List.map_cons, List.nodup_cons] at h
      rw [List.lookup_cons]
      rcases List.mem_cons.mp hx with rfl | hx
      · simp
      · have : (x.1 == a.1) = false := by
          cases he : x.1 == a.1 with
          | false => rfl
          | true => exact absurd (List.mem_map.mpr ⟨x, hx, eq_of_beq he⟩) h.1
        rw [this]
        exact ih h.2 x hx
  exact key _ hA.names (sanitizeKeyword g.1, g.2) (List.mem_map.mpr ⟨g, hg, rfl⟩)

/-- `from(s)` for the name of a generated variant is that variant; for other texts it is the first variant. -/
theorem C80_from_str_partial (hA : (enumItem name (f :: fs)).Accepted) :
    (∀ g ∈ f :: fs, (enumItem name (f :: fs)).fromStrFn (sanitizeKeyword g.1) = some (sanitizeKeyword g.1)) ∧
    (∀ s, (∀ g ∈ f :: fs, sanitizeKeyword g.1 ≠ s) → (enumItem name (f :: fs)).fromStrFn s = some f.1) := by
  have hnames : ((f :: fs).map (fun g => sanitizeKeyword g.1)).Nodup := by
    have := hA.names
    simpa [enumItem, List.map_map, Function.comp_def] using this
  constructor
  · intro g hg
    unfold EnumItem.fromStrFn
    have : (enumItem name (f :: fs)).fromStr.find? (fun a => a.1 == sanitizeKeyword g.1) =
        some (sanitizeKeyword g.1, [sanitizeKeyword name, sanitizeKeyword g.1]) := by
      have h := find_unique hnames hg
      simp only [enumItem, List.find?_map]
      have h2 : ((fun a : Str × Path => a.1 == sanitizeKeyword g.1) ∘ fun f : Str × Int => (sanitizeKeyword f.1, [sanitizeKeyword name, sanitizeKeyword f.1])) =
        fun x => sanitizeKeyword x.1 == sanitizeKeyword g.1 := rfl
      rw [h2, h]; rfl
    rw [this]
    exact variant_own hg
  · intro s hs
    unfold EnumItem.fromStrFn
    have : (enumItem name (f :: fs)).fromStr.find? (fun a => a.1 == s) = none := by
      rw [List.find?_eq_none]
      intro a ha
      obtain ⟨g, hg, rfl⟩ := List.mem_map.mp ha
      simp only [beq_iff_eq]
      exact hs g hg
    rw [this]
    exact C80_default hA

/-- The generated `From<i32>`, seen through `as i32`, is what the model of generated code uses for enums (`Model/Gen.lean`). -/
theorem C80_model (hA : (enumItem name (f :: fs)).Accepted) (hr : ∀ g ∈ f :: fs, Num32 g.2) (i : BitVec 32) :
    ((enumItem name (f :: fs)).fromI32Fn i.toInt).bind (enumItem name (f :: fs)).asI32 =
      some (Gen.enumFrom ((f :: fs).map fun g => BitVec.ofInt 32 g.2) i).toInt := by
  have hof : ∀ g ∈ f :: fs, (BitVec.ofInt 32 g.2).toInt = g.2 := by
    intro g hg
    obtain ⟨h1, h2⟩ := hr g hg
    rw [BitVec.toInt_ofInt]
    have h2 : g.2 < 2147483648 := h2
    refine Int.bmod_eq_of_le_mul_two ?_ ?_ <;> simp <;> omega
  obtain ⟨h1, h2⟩ := C80_from_i32 hA
  unfold Gen.enumFrom
  split
  · rename_i hi
    obtain ⟨g, hg, rfl⟩ := List.mem_map.mp hi
    rw [hof g hg, h1 g hg]
    exact C80_as_i32 hA g hg
  · rename_i hi
    rw [h2 i.toInt (fun g hg e => hi (List.mem_map.mpr ⟨g, hg, by rw [e]; exact BitVec.ofInt_toInt⟩))]
    simp only [List.map_cons, List.headD_cons, Option.bind_some]
    rw [hof f (by simp)]
    have hk := C80_as_i32 hA f (by simp)
    have e : sanitizeKeyword f.1 = f.1 := by
      obtain ⟨w, hw1, hw2⟩ := List.mem_map.mp (first_listed hA).2
      obtain ⟨g, hg, rfl⟩ := List.mem_map.mp hw1
      rw [← hw2]
      exact C47_idempotent_partial _
    rw [e] at hk
    exact hk

end


/-- An enum of the file that has no variants makes pb-rs panic. -/
theorem C80_no_empty {junk : Str} {n : Nat} {j : Job} {d d' : Disk} {src r : Str} {F : Parse.File} (hn : j.noOutput = false)
    (h : writeProto junk n j d = (.ok (), d')) (hs : d.file j.inFile = some src) (hp : Parse.readProto src = .ok F r) :
    ∀ en ∈ F.desc.enums, en.fields ≠ [] := by
  intro en hen hnil
  obtain ⟨p, t, hop, ht, hd⟩ := C73_written hn h
  unfold Job.text at ht
  obtain ⟨E, hE, ht⟩ := Option.bind_eq_some_iff.mp ht
  unfold Job.compiled compileFile at hE
  cases hr : readProtoFile d.file j.search n j.inFile with
  | error e => simp only [hr] at hE; cases hE
  | ok D =>
    simp only [hr] at hE
    cases hc : ({ D with owned := j.cfg.owned } : FileDescriptor).compile (typePath j.cfg) j.cfg with
    | error e => rw [hc] at hE; cases hE
    | ok D' =>
      rw [hc] at hE
      cases hE
      cases hw : (D'.printed j.cfg).write j.cfg (splitSlash j.inFile).2 (servicesOf ((d.file j.inFile).getD [])) with
      | error e => simp only [hw] at ht; cases ht
      | ok text =>
        obtain ⟨D0, imps, ms, es, hrd, h1, _, h2, _, _⟩ := read_own hr
        obtain ⟨text', F', r', ht', hF', _, rfl⟩ := reads_parsed hrd
        rw [hs] at ht'
        cases ht'
        rw [hp] at hF'
        cases hF'
        have hN : FileNamed F.desc := Parse.readProto_named hp
        obtain ⟨k, hk⟩ := List.getElem?_of_mem hen
        obtain ⟨p, q, he1⟩ := getEnum_setPackages (e := ⟨[], k⟩)
          (D := { F.desc with module := if F.desc.package.isEmpty then getFileStem j.inFile else F.desc.package }) (en := en) hk
        have he2 := getEnum_append (D := { D with owned := j.cfg.owned }) h1 h2 he1
        have he3 := compile_getEnum hc ⟨[], k⟩
        rw [he2] at he3
        simp only [Option.map_some] at he3
        obtain ⟨e', he', hcore⟩ := Option.map_eq_some_iff.mp he3
        have henums : (D'.printed j.cfg).enums = D'.enums := by unfold FileDescriptor.printed; split <;> rfl
        simp only [FileDescriptor.getEnum, List.isEmpty_nil, if_true] at he' he1
        have hi : e'.imported = false := by
          have hx := congrArg Enumerator.imported hcore
          have hx : e'.imported = (en.setPackage p q).imported := hx
          rw [hx]
          exact own_enum (F := { F.desc with module := if F.desc.package.isEmpty then getFileStem j.inFile else F.desc.package })
            hN.enums (List.mem_of_getElem? he1)
        unfold FileDescriptor.write at hw
        obtain ⟨u, hu, hw⟩ := emit_bind hw
        obtain ⟨x, hx, hw⟩ := emit_bind hw
        unfold FileDescriptor.writeEnums at hx
        obtain ⟨y, hy, _⟩ := emitAll_has hx e' (List.mem_filter.mpr ⟨by rw [henums]; exact List.mem_of_getElem? he', by rw [hi]; rfl⟩)
        have hq := congrArg Enumerator.partiallyQualified hcore
        have hq : e'.partiallyQualified = en.fields.map fun f => en.name ++ ':' :: ':' :: f.1 := hq
        unfold Enumerator.writeImplDefault at hy
        rw [hq, hnil] at hy
        cases hy

namespace EnumExample

/-- An enum with a keyword among its later variants. -/
def good : EnumItem := enumItem (c! "Color") [(c! "RED", 0), (c! "type", 5), (c! "BLUE", 2)]

/-- The conditions can be met. -/
theorem accepted : good.Accepted := by
  refine (C80_accepted ?_ ?_).mpr ⟨⟨by decide +kernel, by decide +kernel⟩, by decide, by decide +kernel, by decide +kernel⟩
  · exact ⟨'C', c! "olor", rfl, Or.inl (by decide), by decide +kernel⟩
  · intro g hg
    simp only [List.mem_cons, List.not_mem_nil, or_false] at hg
    rcases hg with rfl | rfl | rfl
    · exact ⟨'R', c! "ED", rfl, Or.inl (by decide), by decide +kernel⟩
    · exact ⟨'t', c! "ype", rfl, Or.inl (by decide), by decide +kernel⟩
    · exact ⟨'B', c! "LUE", rfl, Or.inl (by decide), by decide +kernel⟩

/-- The text of an enum with a keyword among its later variants. -/
theorem text : good.definition.str = c! "#[derive(Debug, PartialEq, Eq, Clone, Copy)]\npub enum Color {\n    RED = 0,\n    type_pb = 5,\n    BLUE = 2,\n}\n" ∧
    good.implDefault.str = c! "impl Default for Color {\n    fn default() -> Self {\n        Color::RED\n    }\n}\n" := by
  constructor <;> decide +kernel

/-- A file with that enum, in a message. -/
def source : Str := c! "message M { enum Color { RED = 0; type = 5; BLUE = 2; } optional Color c = 1; }"

/-- The theorem about runs applies: the file is parsed and has that enum. -/
theorem parses : ∃ F, Parse.readProto source = .ok F [] ∧
    (F.desc.getEnum ⟨[0], 0⟩).map (fun e => (e.name, e.fields)) = some (c! "Color", [(c! "RED", 0), (c! "type", 5), (c! "BLUE", 2)]) := by
  have h : (match Parse.readProto source with
    | .ok F r => r.isEmpty && decide ((F.desc.getEnum ⟨[0], 0⟩).map (fun e => (e.name, e.fields)) =
        some (c! "Color", [(c! "RED", 0), (c! "type", 5), (c! "BLUE", 2)]))
    | _ => false) = true := by decide +kernel
  split at h
  · rename_i F r hF
    simp only [Bool.and_eq_true, List.isEmpty_iff, decide_eq_true_eq] at h
    exact ⟨F, by rw [hF, h.1], h.2⟩
  · cases h

end EnumExample

/-- C80 is false: `from` of the name that the `.proto` file gives to a variant can be another variant: the name is looked up after
renaming. Here `E::from("type")` is `A`, although `type` is a variant. -/
theorem C80_refuted_str : (enumItem (c! "E") [(c! "A", 0), (c! "type", 1)]).fromStrFn (c! "type") = some (c! "A") ∧
    (enumItem (c! "E") [(c! "A", 0), (c! "type", 1)]).fromStrFn (c! "type_pb") = some (c! "type_pb") := by
  constructor <;> decide +kernel

/-- C80 is false: if the enum is called like a keyword, or its first variant is, then what is generated does not compile: `default`
returns a variant under its old name. -/
theorem C80_refuted_keyword {name : Str} {f : Str × Int} {fs : List (Str × Int)} (hn : Word name) (hw : ∀ g ∈ f :: fs, Word g.1)
    (h : name ∈ rustKeywords ∨ f.1 ∈ rustKeywords) : ¬ (enumItem name (f :: fs)).Accepted := by
  rw [C80_accepted hn hw]
  rintro ⟨_, _, h1, h2⟩
  exact h.elim h1 h2

/-- C80 is false: enums with two variants of the same number (`option allow_alias = true`, which pb-rs reads and ignores) do not
compile. -/
theorem C80_refuted_alias {name : Str} {fs : List (Str × Int)} (h : ¬ (fs.map (·.2)).Nodup) : ¬ (enumItem name fs).Accepted := by
  intro hA
  have := hA.numbers
  simp only [enumItem, List.map_map, Function.comp_def] at this
  exact h this

/-- The enums of a file. -/
def enumsOf (s : Str) : Option (List (Str × List (Str × Int))) :=
  match Parse.readProto s with
  | .ok F _ => some (F.desc.enums.map fun e => (e.name, e.fields))
  | _ => none

/-- Such files are read without complaint. -/
theorem C80_alias_parses : enumsOf (c! "enum E { option allow_alias = true; A = 0; B = 0; }") =
    some [(c! "E", [(c! "A", 0), (c! "B", 0)])] := by decide +kernel

end QP.Rust
