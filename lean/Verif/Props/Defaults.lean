import Verif.Proofs.Defaults
import Verif.Proofs.Compile
import Verif.Props.Getters
set_option linter.unusedVariables false
/-!
# The default of a field is the value that its declaration gives (C94)
-/

namespace QP.Rust
open QP.Pbrs QP.Gen Spec

theorem declares_type {F : Rounding} {t : FieldType} {d : Str} {x : RVal} (h : DeclaresDefault F t d x) : FieldType.scalar t = true := by
  cases h with
  | s32 t d i h => rcases h with rfl | rfl | rfl <;> rfl
  | s64 t d i h => rcases h with rfl | rfl | rfl <;> rfl
  | u32 t d n h => rcases h with rfl | rfl <;> rfl
  | u64 t d n h => rcases h with rfl | rfl <;> rfl
  | string t d b h => rcases h with rfl | rfl <;> rfl
  | bytes t d b h => rcases h with rfl | rfl <;> rfl
  | _ => rfl

theorem declares_cow {F : Rounding} {d : Str} {x : RVal} :
    (DeclaresDefault F .stringCow d x ↔ DeclaresDefault F .string_ d x) ∧ (DeclaresDefault F .bytesCow d x ↔ DeclaresDefault F .bytes_ d x) := by
  have a : ∀ t, t = .stringCow ∨ t = .string_ → ∀ t', t' = .stringCow ∨ t' = .string_ → DeclaresDefault F t d x → DeclaresDefault F t' d x := by
    intro t ht t' ht' h
    cases h with
    | string t d b h h1 h2 => exact .string _ _ _ ht' h1 h2
    | s32 t d i h => rcases ht with rfl | rfl <;> rcases h with h | h | h <;> cases h
    | s64 t d i h => rcases ht with rfl | rfl <;> rcases h with h | h | h <;> cases h
    | u32 t d i h => rcases ht with rfl | rfl <;> rcases h with h | h <;> cases h
    | u64 t d i h => rcases ht with rfl | rfl <;> rcases h with h | h <;> cases h
    | bytes t d i h => rcases ht with rfl | rfl <;> rcases h with h | h <;> cases h
    | _ => rcases ht with h | h <;> cases h
  have c : ∀ t, t = .bytesCow ∨ t = .bytes_ → ∀ t', t' = .bytesCow ∨ t' = .bytes_ → DeclaresDefault F t d x → DeclaresDefault F t' d x := by
    intro t ht t' ht' h
    cases h with
    | bytes t d b h h1 => exact .bytes _ _ _ ht' h1
    | s32 t d i h => rcases ht with rfl | rfl <;> rcases h with h | h | h <;> cases h
    | s64 t d i h => rcases ht with rfl | rfl <;> rcases h with h | h | h <;> cases h
    | u32 t d i h => rcases ht with rfl | rfl <;> rcases h with h | h <;> cases h
    | u64 t d i h => rcases ht with rfl | rfl <;> rcases h with h | h <;> cases h
    | string t d i h => rcases ht with rfl | rfl <;> rcases h with h | h <;> cases h
    | _ => rcases ht with h | h <;> cases h
  exact ⟨⟨a _ (.inl rfl) _ (.inr rfl), a _ (.inr rfl) _ (.inl rfl)⟩, c _ (.inl rfl) _ (.inr rfl), c _ (.inr rfl) _ (.inl rfl)⟩

/-- A declaration means the same for the owned type. -/
theorem declares_owned {F : Rounding} {t : FieldType} {d : Str} {x : RVal} (ht : FieldType.scalar t = true) (b : Bool) :
    (DeclaresDefault F (if b then t.owned else t) d x ↔ DeclaresDefault F t d x) ∧ PlainDefault (if b then t.owned else t) d = PlainDefault t d := by
  cases b with
  | false => exact ⟨Iff.rfl, rfl⟩
  | true =>
    cases t <;> first
      | (cases ht; done)
      | exact ⟨Iff.rfl, rfl⟩
      | exact ⟨declares_cow.1.symm, rfl⟩
      | exact ⟨declares_cow.2.symm, rfl⟩

theorem scalar_resolves {D : FileDescriptor} {m : Message} {t t' : FieldType} (ht : FieldType.scalar t = true) (h : ResolvesTo D m t t') : t' = t := by
  cases t <;> first | (cases ht; done) | exact h

theorem scalar_owned {t : FieldType} (ht : FieldType.scalar t = true) (b : Bool) : FieldType.scalar (if b then t.owned else t) = true := by
  cases b <;> cases t <;> first | (cases ht; done) | rfl

theorem scalar_litTy {t : FieldType} (ht : FieldType.scalar t = true) (D : FileDescriptor) (cfg : Config) :
    litTy D cfg t = scalarTy t ∧ ∃ T, constTy D cfg t = some T ∧ T.erase = scalarTy t := by
  cases t <;> first | (cases ht; done) | exact ⟨rfl, _, rfl, rfl⟩

/-- In a run of pb-rs: a field of the file with a default. If Rust and the protocol buffer language agree on the constant, the text that
the field of the compiled file has as its default (it is written in the constants and in `impl Default`) is a literal of the type needed
there, and its value is the one declared. -/
theorem C94_value_partial {n : Nat} {j : Job} {d : Disk} {D E : FileDescriptor} (hr : readProtoFile d.file j.search n j.inFile = .ok D)
    (hE : j.compiled n d = some E) (F : Rounding) {i : MessageIndex} {m : Message} {k : Nat} {f : Field} {s : Str} {x : RVal}
    (hm : D.getMessage i = some m) (hf : m.fields[k]? = some f) (hs : f.default = some s) (hx : DeclaresDefault F f.typ s x)
    (hp : PlainDefault f.typ s = true) :
    ∃ m' f' s' y, E.getMessage i = some m' ∧ m'.fields[k]? = some f' ∧ f'.number = f.number ∧ f'.default = some s' ∧
      litValue F (litTy E j.cfg f'.typ) s' = some y ∧ DeclaresDefault F f.typ s y ∧ (s ≠ c! "nan" → y = x) ∧
      ∃ T, constTy E j.cfg f'.typ = some T ∧ T.erase = litTy E j.cfg f'.typ := by
  obtain ⟨D', hc, rfl⟩ := compiled_compile hr hE
  obtain ⟨D1, D2, D3, D4, H, S, hv, hH⟩ := compile_fields hc
  have hm0 : ({ D with owned := j.cfg.owned } : FileDescriptor).getMessage i = some m := hm
  have hfm : f ∈ m.fields := List.mem_of_getElem? hf
  obtain ⟨hfc, hd, hn⟩ := hH i m hm0 f (List.mem_append_left _ hfm)
  have ht := declares_type hx
  have htyp : (H i f).typ = if j.cfg.dontUseCow then f.typ.owned else f.typ := by
    obtain ⟨t, h1, h2⟩ := hfc.typ
    rw [scalar_resolves ht h1] at h2
    exact h2
  have hvi := hv i
  unfold FileDescriptor.fieldsAt at hvi
  rw [hm0] at hvi
  obtain ⟨m', hm', hfs⟩ := Option.map_eq_some_iff.mp hvi
  have hfs := congrArg Prod.fst hfs
  have hfs : m'.fields = m.fields.map (H i) := hfs
  obtain ⟨b, hb⟩ : ∃ b, b = j.cfg.dontUseCow := ⟨_, rfl⟩
  rw [← hb] at htyp
  have hx' : DeclaresDefault F (H i f).typ s x := by rw [htyp]; exact (declares_owned ht b).1.mpr hx
  have hp' : PlainDefault (H i f).typ s = true := by rw [htyp, (declares_owned (F := F) (x := x) ht b).2]; exact hp
  obtain ⟨s', y, h1, h2, h3, h4⟩ := plain_literal hx' hp' (typePath j.cfg D3)
  have hsc : FieldType.scalar (H i f).typ = true := by rw [htyp]; exact scalar_owned ht b
  obtain ⟨l1, T, l2, l3⟩ := scalar_litTy hsc (D'.printed j.cfg) j.cfg
  refine ⟨m', H i f, s', y, ?_, by rw [hfs, List.getElem?_map, hf]; rfl, hfc.number, ?_, by rw [l1]; exact h2, ?_, h4, T, l2, by rw [l3, l1]⟩
  · rw [← hm']
    unfold FileDescriptor.printed
    split <;> rfl
  · rw [hd, hs]
    show some (rewritten _ _ _) = _
    unfold rewritten
    rw [h1]
    rfl
  · rw [htyp] at h3
    exact (declares_owned ht b).1.mp h3

/-- `lower` is the lower case of ASCII letters. -/
theorem lower_eq (c : Char) : lower c = c.toLower := by
  unfold lower Char.toLower
  by_cases h : 'A' ≤ c ∧ c ≤ 'Z'
  · have h' : c.val ≥ 'A'.val ∧ c.val ≤ 'Z'.val := h
    rw [if_pos h, dif_pos h']
    have h2 : c.val.toNat ≤ 90 := h.2
    apply Char.eq_of_val_eq
    apply UInt32.toNat_inj.mp
    have hv : (c.toNat + 32).isValidChar := Or.inl (show c.val.toNat + 32 < 55296 by omega)
    rw [Char.ofNat, dif_pos hv]
    show c.val.toNat + 32 = (c.val + 32).toNat
    rw [UInt32.toNat_add]
    show _ = (c.val.toNat + 32) % 2 ^ 32
    omega
  · have h' : ¬ (c.val ≥ 'A'.val ∧ c.val ≤ 'Z'.val) := h
    rw [if_neg h, dif_neg h']

/-- pb-rs also accepts `inf`, `-inf` and `nan` in capital letters. They mean the same. -/
theorem C94_capitals {n : Nat} {j : Job} {d : Disk} {D E : FileDescriptor} (hr : readProtoFile d.file j.search n j.inFile = .ok D)
    (hE : j.compiled n d = some E) (F : Rounding) {i : MessageIndex} {m : Message} {k : Nat} {f : Field} {s w : Str}
    (hm : D.getMessage i = some m) (hf : m.fields[k]? = some f) (hs : f.default = some s) (ht : f.typ = .float ∨ f.typ = .double)
    (hw : w = c! "inf" ∨ w = c! "-inf" ∨ w = c! "nan") (hsw : s.map Char.toLower = w) :
    ∃ m' f' s' y, E.getMessage i = some m' ∧ m'.fields[k]? = some f' ∧ f'.number = f.number ∧ f'.default = some s' ∧
      litValue F (litTy E j.cfg f'.typ) s' = some y ∧ DeclaresDefault F f.typ w y := by
  obtain ⟨D', hc, rfl⟩ := compiled_compile hr hE
  obtain ⟨D1, D2, D3, D4, H, S, hv, hH⟩ := compile_fields hc
  have hm0 : ({ D with owned := j.cfg.owned } : FileDescriptor).getMessage i = some m := hm
  have hfm : f ∈ m.fields := List.mem_of_getElem? hf
  obtain ⟨hfc, hd, hn⟩ := hH i m hm0 f (List.mem_append_left _ hfm)
  have htyp : (H i f).typ = f.typ := by
    obtain ⟨t, h1, h2⟩ := hfc.typ
    have hsc : FieldType.scalar f.typ = true := by rcases ht with h | h <;> rw [h] <;> rfl
    rw [scalar_resolves hsc h1] at h2
    rw [h2]
    split
    · rcases ht with h | h <;> rw [h] <;> rfl
    · rfl
  have hvi := hv i
  unfold FileDescriptor.fieldsAt at hvi
  rw [hm0] at hvi
  obtain ⟨m', hm', hfs⟩ := Option.map_eq_some_iff.mp hvi
  have hfs : m'.fields = m.fields.map (H i) := congrArg Prod.fst hfs
  have hl : s.map lower = w := by rw [← hsw]; exact List.map_congr_left fun c _ => lower_eq c
  have key : ∃ s' y, rewritten (typePath j.cfg D3) f.typ s = s' ∧ litValue F (scalarTy f.typ) s' = some y ∧ DeclaresDefault F f.typ w y := by
    rcases ht with h | h <;> rw [h] <;> rcases hw with rfl | rfl | rfl <;> unfold rewritten sanitizeText <;> simp only [hl]
    · exact ⟨_, _, rfl, rfl, .floatInf⟩
    · exact ⟨_, _, rfl, rfl, .floatNegInf⟩
    · exact ⟨_, _, rfl, rfl, .floatNan _ (by decide)⟩
    · exact ⟨_, _, rfl, rfl, .doubleInf⟩
    · exact ⟨_, _, rfl, rfl, .doubleNegInf⟩
    · exact ⟨_, _, rfl, rfl, .doubleNan _ (by decide)⟩
  obtain ⟨s', y, h1, h2, h3⟩ := key
  have hsc : FieldType.scalar (H i f).typ = true := by rw [htyp]; rcases ht with h | h <;> rw [h] <;> rfl
  refine ⟨m', H i f, s', y, ?_, by rw [hfs, List.getElem?_map, hf]; rfl, hfc.number, ?_, ?_, h3⟩
  · rw [← hm']
    unfold FileDescriptor.printed
    split <;> rfl
  · rw [hd, hs]
    show some (rewritten _ _ _) = _
    rw [htyp, h1]
  · rw [(scalar_litTy hsc _ _).1, htyp]
    exact h2

/-- In Rust: of an optional field that is not set, the getter returns the default declared. -/
theorem C94_getter_partial {n : Nat} {j : Job} {d : Disk} {D E : FileDescriptor} (hr : readProtoFile d.file j.search n j.inFile = .ok D)
    (hE : j.compiled n d = some E) (F : Rounding) {i : MessageIndex} {m : Message} {k : Nat} {f : Field} {s : Str} {x : RVal}
    (hm : D.getMessage i = some m) (hf : m.fields[k]? = some f) (hs : f.default = some s) (hx : DeclaresDefault F f.typ s x)
    (hp : PlainDefault f.typ s = true) :
    ∃ m' f' y, E.getMessage i = some m' ∧ m'.fields[k]? = some f' ∧ f'.number = f.number ∧ DeclaresDefault F f.typ s y ∧ (s ≠ c! "nan" → y = x) ∧
      ∀ {fs : List (Str × Ty)} {cs : List ConstItem} {s' : Str}, MessageSane m' → structFields E j.cfg m' = some fs → (fs.map (·.1)).Nodup →
        constItems E j.cfg m' = some cs → Defaulted E j.cfg f' s' →
        ∃ (g : GetterItem) (p : Nat), getterItem E j.cfg f' = some g ∧ (members j.cfg m')[p]? = some (Member.field f') ∧
          ∀ (slots : List RVal) (K : Ty → Str → RVal), (∀ t s v, litValue F t s = some v → K t s = v) →
            slots[p]? = some .none → g.call ⟨fs, slots, cs, K⟩ = some y := by
  obtain ⟨m', f', s', y, h1, h2, h3, h4, h5, h6, h7, T, h8, h9⟩ := C94_value_partial hr hE F hm hf hs hx hp
  refine ⟨m', f', y, h1, h2, h3, h6, h7, ?_⟩
  intro fs cs s'' hsane hfs hnd hcs hdf
  obtain ⟨g, p, g1, g2, g3⟩ := C87_getter hsane hfs hnd hcs (List.mem_of_getElem? h2) hdf h8
  refine ⟨g, p, g1, g2, fun slots K hK hslot => ?_⟩
  rw [(g3 slots K).1 hslot]
  cases hdf.default.symm.trans h4
  rw [h9]
  exact congrArg some (hK _ _ _ h5)

/-! ## A run -/

namespace DefaultsExample
open RunExample

def src : Str := c! "message M { optional int32 a = 1 [default = -7]; optional string b = 2 [default = \"x\\n\\x41\"]; optional double c = 3 [default = 1.5e3]; repeated M d = 4; }"
def job : Job := { inFile := c! "x.proto", outFile := c! "x.rs", cfg := { generateGetters := true } }
def before : Disk := disk [(c! "x.proto", src)] []

/-- The hypotheses of `C94_value_partial` are met: by an integer, a string with escapes and a floating-point number. -/
theorem C94_example (F : Rounding) : ∃ D E m f1 f2 f3, readProtoFile before.file job.search 1 job.inFile = .ok D ∧ job.compiled 1 before = some E ∧
    D.getMessage [0] = some m ∧ m.fields[0]? = some f1 ∧ m.fields[1]? = some f2 ∧ m.fields[2]? = some f3 ∧
    f1.default = some (c! "-7") ∧ f2.default = some (c! "x\\n\\x41") ∧ f3.default = some (c! "1.5e3") ∧
    DeclaresDefault F f1.typ (c! "-7") (.w32 (BitVec.ofInt 32 (-7))) ∧ DeclaresDefault F f2.typ (c! "x\\n\\x41") (.bytes [120, 10, 65]) ∧
    DeclaresDefault F f3.typ (c! "1.5e3") (.w64 (F.f64 false 15 2)) ∧
    PlainDefault f1.typ (c! "-7") = true ∧ PlainDefault f2.typ (c! "x\\n\\x41") = true ∧ PlainDefault f3.typ (c! "1.5e3") = true ∧
    ∃ t, (writeProto [] 1 job before).2.file (c! "x.rs") = some t ∧ c! "pub const DEFAULT_a: i32 = -7i32;" <:+: t ∧
      c! "pub const DEFAULT_b: Cow<'a, str> = Cow::Borrowed(\"x\\n\\x41\");" <:+: t ∧ c! "pub const DEFAULT_c: f64 = 1.5e3f64;" <:+: t := by
  have h : (match readProtoFile before.file job.search 1 job.inFile, job.compiled 1 before with
    | .ok D, some _ => (match D.getMessage [0] with
      | some m => (match m.fields with
        | f1 :: f2 :: f3 :: _ => decide (f1.default = some (c! "-7") ∧ f2.default = some (c! "x\\n\\x41") ∧ f3.default = some (c! "1.5e3") ∧
            f1.typ = .int32 ∧ f2.typ = .stringCow ∧ f3.typ = .double)
        | _ => false)
      | none => false)
    | _, _ => false) = true := by decide +kernel
  split at h
  · rename_i D E hD hE
    split at h
    · rename_i m hm
      split at h
      · rename_i f1 f2 f3 fs hfs
        obtain ⟨d1, d2, d3, t1, t2, t3⟩ := of_decide_eq_true h
        have u : unescape (c! "x\\n\\x41") = some [120, 10, 65] := by decide +kernel
        have v : ValidUtf8 [120, 10, 65] := ⟨[120, 10, 65], by simp [scalar], by decide⟩
        have i7 : SignedText (c! "-7") (-7) := .minus (c! "7") 7 (.decimal (c! "7") ⟨by decide, by decide⟩ (by decide))
        have r : SignedReal (c! "1.5e3") false 15 2 := .plus _ _ _ (.point (c! "1") (c! "5") (c! "e3") 3 (.inl (by decide)) (by decide)
          (.inr (.plus 'e' [] (c! "3") (.inl rfl) (.inl rfl) ⟨by decide, by decide⟩)))
        refine ⟨D, E, m, f1, f2, f3, hD, hE, hm, by rw [hfs]; rfl, by rw [hfs]; rfl, by rw [hfs]; rfl, d1, d2, d3, ?_, ?_, ?_, ?_, ?_, ?_,
          ((writeProto [] 1 job before).2.file (c! "x.rs")).getD [], ?_, ?_, ?_, ?_⟩
        · rw [t1]; exact .s32 _ _ _ (.inl rfl) i7 (by decide) (by decide)
        · rw [t2]; exact .string _ _ _ (.inl rfl) u v
        · rw [t3]; exact .double _ _ _ _ r
        · rw [t1]; decide +kernel
        · rw [t2]; decide +kernel
        · rw [t3]; decide +kernel
        all_goals decide +kernel
      · cases h
    · cases h
  · cases h

end DefaultsExample

/-! ## Constants that the two languages read differently -/

open RunExample in
/-- `default = -INF`. -/
theorem C94_capitals_example : ∃ (d : Disk) (j : Job) (t : Str), (writeProto [] 1 j d).1.isOk = true ∧
    d.file j.inFile = some (c! "message M { optional double a = 1 [default = -INF]; }") ∧
    (writeProto [] 1 j d).2.file (c! "x.rs") = some t ∧ c! "pub const DEFAULT_a: f64 = ::core::f64::NEG_INFINITY;" <:+: t := by
  refine ⟨disk [(c! "x.proto", c! "message M { optional double a = 1 [default = -INF]; }")] [], { inFile := c! "x.proto", outFile := c! "x.rs" },
    ((writeProto [] 1 { inFile := c! "x.proto", outFile := c! "x.rs" }
      (disk [(c! "x.proto", c! "message M { optional double a = 1 [default = -INF]; }")] [])).2.file (c! "x.rs")).getD [],
    by decide +kernel, by decide +kernel, by decide +kernel, by decide +kernel⟩

open RunExample in
/-- An octal constant is copied, and is decimal in Rust: the default is another number. -/
theorem C94_refuted_octal (F : Rounding) : ∃ (d : Disk) (j : Job) (t : Str), (writeProto [] 1 j d).1.isOk = true ∧
    d.file j.inFile = some (c! "message M { optional int32 a = 1 [default = 010]; }") ∧
    (writeProto [] 1 j d).2.file (c! "x.rs") = some t ∧ c! "pub const DEFAULT_a: i32 = 010i32;" <:+: t ∧
    DeclaresDefault F .int32 (c! "010") (.w32 8#32) ∧ litValue F .i32 (c! "010i32") = some (.w32 10#32) := by
  refine ⟨disk [(c! "x.proto", c! "message M { optional int32 a = 1 [default = 010]; }")] [], { inFile := c! "x.proto", outFile := c! "x.rs" },
    ((writeProto [] 1 { inFile := c! "x.proto", outFile := c! "x.rs" }
      (disk [(c! "x.proto", c! "message M { optional int32 a = 1 [default = 010]; }")] [])).2.file (c! "x.rs")).getD [],
    by decide +kernel, by decide +kernel, by decide +kernel, by decide +kernel, ?_, rfl⟩
  have h : SignedText (c! "010") 8 := .plus _ 8 (.octal (c! "10") ⟨by decide, by decide⟩)
  exact .s32 _ _ 8 (.inl rfl) h (by decide) (by decide)

open RunExample in
/-- An octal escape is copied, and in Rust only `\0` is one: the default is another string. -/
theorem C94_refuted_escape (F : Rounding) : ∃ (d : Disk) (j : Job) (t : Str), (writeProto [] 1 j d).1.isOk = true ∧
    d.file j.inFile = some (c! "message M { required string a = 1 [default = \"\\01\"]; }") ∧
    (writeProto [] 1 j d).2.file (c! "x.rs") = some t ∧ c! "            a: Cow::Borrowed(\"\\01\"),\n" <:+: t ∧
    DeclaresDefault F .stringCow (c! "\\01") (.bytes [1]) ∧ litValue F .cowStr (c! "Cow::Borrowed(\"\\01\")") = some (.bytes [0, 49]) := by
  refine ⟨disk [(c! "x.proto", c! "message M { required string a = 1 [default = \"\\01\"]; }")] [], { inFile := c! "x.proto", outFile := c! "x.rs" },
    ((writeProto [] 1 { inFile := c! "x.proto", outFile := c! "x.rs" }
      (disk [(c! "x.proto", c! "message M { required string a = 1 [default = \"\\01\"]; }")] [])).2.file (c! "x.rs")).getD [],
    by decide +kernel, by decide +kernel, by decide +kernel, by decide +kernel, ?_, rfl⟩
  exact .string _ _ _ (.inl rfl) (by decide +kernel) ⟨[1], by simp [scalar], by decide⟩

open RunExample in
/-- A point without digits before it, a hexadecimal number for a `float`, `0X`, a double quote in single quotes, the escapes that Rust does
not have: the generated file does not compile. -/
theorem C94_refuted_syntax (F : Rounding) : ∃ (d : Disk) (j : Job) (t : Str), (writeProto [] 1 j d).1.isOk = true ∧
    d.file j.inFile = some (c! "message M { optional double a = 1 [default = .5]; optional float b = 2 [default = 0x10]; optional uint32 c = 3 [default = 0XFF]; optional string d = 4 [default = 'x\"y']; optional bytes e = 5 [default = \"\\a\"]; }") ∧
    (writeProto [] 1 j d).2.file (c! "x.rs") = some t ∧
    (c! "pub const DEFAULT_a: f64 = .5f64;" <:+: t ∧ DeclaresDefault F .double (c! ".5") (.w64 (F.f64 false 5 (-1))) ∧ (litValue F .f64 (c! ".5f64")).isNone = true) ∧
    (c! "pub const DEFAULT_b: f32 = 0x10f32;" <:+: t ∧ DeclaresDefault F .float (c! "0x10") (.w32 (F.f32 false 16 0)) ∧ (litValue F .f32 (c! "0x10f32")).isNone = true) ∧
    (c! "pub const DEFAULT_c: u32 = 0XFFu32;" <:+: t ∧ DeclaresDefault F .uint32 (c! "0XFF") (.w32 255#32) ∧ (litValue F .u32 (c! "0XFFu32")).isNone = true) ∧
    (c! "pub const DEFAULT_d: Cow<'a, str> = Cow::Borrowed(\"x\"y\");" <:+: t ∧ DeclaresDefault F .stringCow (c! "x\"y") (.bytes [120, 34, 121]) ∧
      (litValue F .cowStr (c! "Cow::Borrowed(\"x\"y\")")).isNone = true) ∧
    (c! "pub const DEFAULT_e: Cow<'a, [u8]> = Cow::Borrowed(b\"\\a\");" <:+: t ∧ DeclaresDefault F .bytesCow (c! "\\a") (.bytes [7]) ∧
      (litValue F .cowBytes (c! "Cow::Borrowed(b\"\\a\")")).isNone = true) := by
  refine ⟨disk [(c! "x.proto", c! "message M { optional double a = 1 [default = .5]; optional float b = 2 [default = 0x10]; optional uint32 c = 3 [default = 0XFF]; optional string d = 4 [default = 'x\"y']; optional bytes e = 5 [default = \"\\a\"]; }")] [], { inFile := c! "x.proto", outFile := c! "x.rs" },
    ((writeProto [] 1 { inFile := c! "x.proto", outFile := c! "x.rs" }
      (disk [(c! "x.proto", c! "message M { optional double a = 1 [default = .5]; optional float b = 2 [default = 0x10]; optional uint32 c = 3 [default = 0XFF]; optional string d = 4 [default = 'x\"y']; optional bytes e = 5 [default = \"\\a\"]; }")] [])).2.file (c! "x.rs")).getD [],
    by decide +kernel, by decide +kernel, by decide +kernel, ⟨by decide +kernel, ?_, rfl⟩, ⟨by decide +kernel, ?_, rfl⟩, ⟨by decide +kernel, ?_, rfl⟩,
    ⟨by decide +kernel, ?_, rfl⟩, ⟨by decide +kernel, ?_, rfl⟩⟩
  · have h : SignedReal (c! ".5") false 5 (-1) := .plus _ _ _ (.point [] (c! "5") [] 0 (.inr (by decide)) (by decide) (.inl ⟨rfl, rfl⟩))
    exact .double _ _ _ _ h
  · have h : SignedReal (c! "0x10") false 16 0 := .plus _ _ _ (.int _ 16 (.hex 'x' (c! "10") (.inl rfl) ⟨by decide, by decide⟩))
    exact .float _ _ _ _ h
  · have h : IntText (c! "0XFF") 255 := .hex 'X' (c! "FF") (.inr rfl) ⟨by decide, by decide⟩
    exact .u32 _ _ _ (.inl rfl) h (by decide)
  · exact .string _ _ _ (.inl rfl) (by decide +kernel) ⟨[120, 34, 121], by simp [scalar], by decide⟩
  · exact .bytes _ _ _ (.inl rfl) (by decide +kernel)

end QP.Rust
