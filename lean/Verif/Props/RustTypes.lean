import Verif.Props.Generated
import Verif.Props.Owned
set_option linter.unusedVariables false
/-!
# C84: the values of the generated types

The properties of encoding and decoding quantify over the values of messages. Here: these are exactly the values of the Rust types that
pb-rs prints, so they hold for everything a user can construct; and what decoding returns is such a value.
-/

namespace QP.Rust
open QP.Pbrs QP.Gen Spec

section
variable {C : Ctx} {P : Prog} {dflt : Path → RVal}

/-- The values of the struct of a message (with or without `<'a>`) are the values the schema describes. -/
theorem C84_values (G : Generates C P dflt) (hS : SchemaOk C) (hK : PackedOk C) (h1 : OneKind P) {idx : MessageIndex} {m : Message}
    (hm : C.D.getMessage idx = some m) (l : Bool) (v : RVal) :
    ValueOf P (.adt (messagePath C.D m) l) v ↔ ∃ n, WellTyped C AnyValue n idx v := by
  constructor
  · rintro ⟨n, h⟩
    simp only [TyVal] at h
    exact ⟨n, wellTyped_of G hS hK h1 n idx m v hm h⟩
  · rintro ⟨n, h⟩
    exact ⟨2 * n + 1, by simp only [TyVal]; exact adtVal_of G hS hK n idx m v hm h⟩

/-- Whatever `from_reader` returns is a value of the struct. -/
theorem C84_decoded (G : Generates C P dflt) (hS : SchemaOk C) (hK : PackedOk C) (h1 : OneKind P) (hr : Resolved C)
    (hD : P.IsDefault C.T dflt) (hO : C.T.overflowChecks = true) {idx : MessageIndex} {m : Message} (hm : C.D.getMessage idx = some m)
    (l : Bool) (b : Bytes) (hR : Roomy C.T b) (v : RVal)
    (h : (P.fromReader C.T dflt (b.length + 1) (messagePath C.D m) b (BytesReader.from_bytes b)).1 = .ok v) :
    ValueOf P (.adt (messagePath C.D m) l) v := by
  have hdef := C78_default G hS hK hD
  rw [C78_read G hS hK hD _ idx m hm] at h
  obtain ⟨k, hk⟩ := (C63_decode_iff C hO hS idx b hR v).mp h
  exact (C84_values G hS hK h1 hm l v).mpr (decMsg_typed hr hS hdef (fun _ _ _ _ _ _ _ => trivial) k idx b v hk)

/-- Every value of the struct is written, and read back up to the sign of floating point zeros in fields without presence. -/
theorem C84_roundtrip (G : Generates C P dflt) (hS : SchemaOk C) (hK : PackedOk C) (h1 : OneKind P) (hF : NoDefaults C)
    (hD : P.IsDefault C.T dflt) (hT : C.T.bigEndian = false) {idx : MessageIndex} {m : Message} (hm : C.D.getMessage idx = some m)
    (l : Bool) (v : RVal) (hv : ValueOf P (.adt (messagePath C.D m) l) v) : ∃ N, ∀ n, N ≤ n →
      (P.writeImpl C.T dflt n (messagePath C.D m)).get_size v < 2 ^ 32 →
      sizeof_len ((P.writeImpl C.T dflt n (messagePath C.D m)).get_size v) < 2 ^ C.T.usizeBits →
      ∃ bytes, serialize_into_vec (P.writeImpl C.T dflt n (messagePath C.D m)) v = .ok bytes ∧
        ∀ fuel, bytes.length ≤ fuel → ∃ v',
          deserialize_from_slice C.T (P.fromReader C.T dflt fuel (messagePath C.D m)) bytes = .ok v' ∧ v'.obs = (unsign C n idx v).obs := by
  obtain ⟨N, hN⟩ := (C84_values G hS hK h1 hm l v).mp hv
  refine ⟨N, fun n hn hsz hbits => ?_⟩
  have hw := WellTyped.mono hn _ _ hN
  obtain ⟨e1, e2⟩ := C78_write G hS hK n idx m hm v hw
  rw [e1] at hsz hbits
  rw [serialize_congr e1 e2]
  have hx := exactWrite C hT hS n idx v hw (by omega)
  obtain ⟨bytes, h1, h2, h3, _⟩ := C27_vec_slice_agree _ _ _ hx
  have heq := unsign_enc hS hF n idx v hw
  have hl : (encMsg C n idx (unsign C n idx v)).length < 2 ^ 32 := by rw [heq, ← hx.2.1]; exact hsz
  refine ⟨bytes, h1, fun fuel hf => ?_⟩
  rw [C78_read G hS hK hD fuel idx m hm]
  subst h2
  rw [← heq] at hf ⊢
  rw [← h3, ← heq] at hbits
  have hd := delimited_length (encMsg C n idx (unsign C n idx v))
  obtain ⟨v', ho, hr⟩ := fromReader_ok hT hS (C78_default G hS hK hD) n idx _
    (WellTyped.imp (Q' := Restorable C) (fun f v => Plain.restorable) n idx _ (unsign_typed hF n idx v hw)) hl fuel (by omega)
  refine ⟨v', ?_, ho⟩
  have := readsAs_len_varint (T := C.T) hl hr.weak [] [] (delimited (encMsg C n idx (unsign C n idx v))).length
    (by simpa using hbits) (by simp)
  simp only [List.nil_append, List.append_nil, List.length_nil] at this
  simp only [deserialize_from_slice, BytesReader.read_message, BytesReader.from_bytes]
  rw [this]

end

/-- A run of pb-rs, on a schema whose names do not clash: whatever value of a struct of the printed program a user makes, the printed
functions write it and read it back. -/
theorem C84_run_partial {junk : Str} {n : Nat} {j : Job} {d d' : Disk} {D E : FileDescriptor} (hn : j.noOutput = false)
    (h : writeProto junk n j d = (.ok (), d')) (hr : readProtoFile d.file j.search n j.inFile = .ok D) (hf : NoNestedMaps D)
    (hN : Numbered D) (hK : NestedPackedOk D) (hE : j.compiled n d = some E)
    (hI : ∀ t ∈ E.messages, t.imported = true → ∃ x, t.write E j.cfg = .ok x) (hX : Distinct E j.cfg)
    (hcow : ∀ i m, E.getMessage i = some m → ∀ f ∈ m.fields, f.visible j.cfg = true → isPackedFixed f = true → j.cfg.dontUseCow = false)
    (hF : ∀ i m, E.getMessage i = some m → ∀ f, Member.field f ∈ members j.cfg m → f.frequency.generated = .singular →
      f.hasPresence = false → f.default = none)
    {K : Ty → Str → RVal} (hL : Literals E j.cfg K) (T : Target) (hT : T.bigEndian = false) :
    ∃ p text C P dflt, j.out n d = some p ∧ d'.file p = some (Doc.str text) ∧ C.T = T ∧ C.D = E ∧ C.cfg = j.cfg ∧ P.IsDefault T dflt ∧
      (∀ i is t m, E.messages[i]? = some t → t.imported = false → E.getMessage (i :: is) = some m →
        ∃ s l, P.structs (messagePath E m) = some s ∧ HasStruct text m.name m.isUnit l (deprecations j.cfg m) s ∧
          ∀ o ∈ m.oneofs, ∃ l vs, P.oneofs (oneofPath E o) = some vs ∧
            HasOneof text o.name l ((o.shown j.cfg).map (·.deprecated)) vs) ∧
      ∀ idx m l v, E.getMessage idx = some m → ValueOf P (.adt (messagePath E m) l) v → ∃ N, ∀ n, N ≤ n →
        (P.writeImpl T dflt n (messagePath E m)).get_size v < 2 ^ 32 →
        sizeof_len ((P.writeImpl T dflt n (messagePath E m)).get_size v) < 2 ^ T.usizeBits →
        ∃ bytes, serialize_into_vec (P.writeImpl T dflt n (messagePath E m)) v = .ok bytes ∧
          ∀ fuel, bytes.length ≤ fuel → ∃ v',
            deserialize_from_slice T (P.fromReader T dflt fuel (messagePath E m)) bytes = .ok v' ∧ v'.obs = (unsign C n idx v).obs := by
  obtain ⟨p, text, C, P, dflt, h1, h2, h3, h4, h5, h6, G, hD, hS, hPk, hO, h7⟩ := run_program hn h hr hf hN hK hE hI hX hcow hL T
  subst h3 h4
  exact ⟨p, text, C, P, dflt, h1, h2, rfl, rfl, h5, hD, h7, fun idx m l v hm hv =>
    C84_roundtrip G hS hPk hO (by unfold NoDefaults; rw [h5]; exact hF) hD hT hm l v hv⟩

open GeneratedExample in
/-- The example of C79: its `Node` is a value of the printed struct `Node`. -/
theorem C84_example (T : Target) : ∃ p text C P dflt m d', writeProto [] 1 job before = (.ok (), d') ∧
    d'.file p = some (Doc.str text) ∧ C.T = T ∧ Generates C P dflt ∧ P.IsDefault T dflt ∧ OneKind P ∧ NoDefaults C ∧
    C.D.getMessage [0] = some m ∧ ValueOf P (.adt (messagePath C.D m) true) value := by
  obtain ⟨D, E, d', h1, h2, h3, h4, h5, h6, h7, h8, h9, h10, h11, h12⟩ := conditions
  obtain ⟨p, text, C, P, dflt, hp, ht, rfl, rfl, hcfg, _, G, hD, hS, hPk, hO, _⟩ :=
    run_program rfl h1 h2 h3 h4 h5 h6 h7 h8 (fun _ _ _ _ _ _ _ => rfl) h9 T
  obtain ⟨m, hm, e⟩ := h10
  refine ⟨p, text, C, P, dflt, m, d', h1, ht, rfl, G, hD, hO, ?_, hm,
    (C84_values G hS hPk hO hm true _).mpr ⟨2, WellTyped.imp (Q' := AnyValue) (fun _ _ _ _ _ => trivial) 2 [0] _ (value_typed hcfg ⟨m, hm, e⟩ h11 h12)⟩⟩
  have hb : (match job.compiled 1 before with
      | some E => decide (∀ p ∈ Message.preorderAll [] 0 E.messages, ∀ f ∈ p.2.fields, f.hasPresence = false → f.default = none)
      | none => false) = true := by decide +kernel
  rw [h6] at hb
  have hb := of_decide_eq_true hb
  intro idx m hm f hf _ hp
  refine hb (idx, m) ((mem_preorder_file _ idx m).mpr hm) f ?_ hp
  unfold members at hf
  rcases List.mem_append.mp hf with hf | hf
  · obtain ⟨g, hg, e⟩ := List.mem_map.mp hf
    cases e
    exact (List.mem_filter.mp hg).1
  · obtain ⟨g, hg, e⟩ := List.mem_map.mp hf
    cases e

end QP.Rust
