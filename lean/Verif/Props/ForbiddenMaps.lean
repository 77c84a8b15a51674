import Verif.Props.Derives
set_option linter.unusedVariables false
/-!
# Maps where protobuf does not allow them (C118)
-/

namespace QP.Rust
open QP.Pbrs RunExample

theorem readTree_noMap {D : FileDescriptor} {t : FieldType} {e : Expr} (h : readTree D t = some e) : t.isMap = false := by
  cases t <;> first | rfl | cases h

theorem matchTree_flat {D : FileDescriptor} {cfg : Config} {f : Field} {b : ArmBody} (h : matchTree D cfg f = some b) (hs : FieldSane f) :
    f.typ.flat = true := by
  cases hty : f.typ with
  | map k v =>
    have hb : f.boxed = false := by
      cases hb : f.boxed with
      | false => rfl
      | true =>
        obtain ⟨j, hj⟩ := hs.boxed hb
        rw [hty] at hj
        cases hj
    have hq : f.frequency.generated = .map := by
      have := hs.map
      rw [hty] at this
      cases hfr : f.frequency <;> rw [hfr] at this <;> first | rfl | cases this
    unfold matchTree at h
    simp only [hb, hq, hty, Bool.false_eq_true, if_false, Option.bind_eq_some_iff, Option.map_eq_some_iff] at h
    obtain ⟨_, _, _, _, ke, hk, ve, hv, _⟩ := h
    simp only [FieldType.flat, readTree_noMap hk, readTree_noMap hv]
    rfl
  | _ => rfl

theorem oneofMatch_flat {D : FileDescriptor} {o : OneOf} {f : Field} {x : Pat × ArmBody} (h : oneofMatchTree D o f = some x) : f.typ.isMap = false := by
  unfold oneofMatchTree at h
  simp only at h
  split at h
  · split at h
    · rename_i i hi; rw [hi]; rfl
    · cases h
  · obtain ⟨e, he, _⟩ := Option.map_eq_some_iff.mp h
    exact readTree_noMap he

/-- Where there is a struct, no map is where it must not be. -/
theorem structDef_flat {D : FileDescriptor} {cfg : Config} {m : Message} {s : StructDef} (h : structDef D cfg m = some s) (hs : MessageSane m) :
    (∀ f ∈ m.fields, f.visible cfg = true → f.typ.flat = true) ∧ ∀ o ∈ m.oneofs, ∀ f ∈ o.fields, f.visible cfg = true → f.typ.isMap = false := by
  unfold structDef at h
  simp only [Option.bind_eq_some_iff, Option.map_eq_some_iff] at h
  obtain ⟨_, _, _, _, _, _, r, hr, _⟩ := h
  unfold readBody at hr
  simp only [Option.bind_eq_some_iff, Option.map_eq_some_iff] at hr
  obtain ⟨fs, hfs, os, hos, _⟩ := hr
  constructor
  · intro f hf hv
    obtain ⟨x, _, hx⟩ := mapM_all hfs f (List.mem_filter.mpr ⟨hf, hv⟩)
    unfold fieldArm at hx
    obtain ⟨b, hb, _⟩ := Option.map_eq_some_iff.mp hx
    exact matchTree_flat hb (hs.fields f hf)
  · intro o ho f hf hv
    obtain ⟨x, _, hx⟩ := mapM_all hos o ho
    obtain ⟨y, _, hy⟩ := mapM_all hx f (List.mem_filter.mpr ⟨hf, hv⟩)
    exact oneofMatch_flat hy

theorem flat_back {D : FileDescriptor} {m : Message} {b : Bool} {t t' : FieldType} (h : ResolvesTo D m t t') (hf : (if b then t'.owned else t').flat = true) :
    t.flat = true := by
  cases t with
  | map k v =>
    obtain ⟨k', v', rfl, hk, hv⟩ := h
    have one : ∀ {x x' : FieldType}, ResolvesOne D m x x' → x'.isMap = false → x.isMap = false := by
      intro x x' hx hm
      cases x with
      | map _ _ => cases hx; cases hm
      | _ => rfl
    have own : ∀ x : FieldType, x.ownedOne.isMap = x.isMap := by intro x; cases x <;> rfl
    have : k'.isMap = false ∧ v'.isMap = false := by
      cases b
      · simpa [FieldType.flat] using hf
      · simpa [FieldType.flat, FieldType.owned, own] using hf
    simp only [FieldType.flat, one hk this.1, one hv this.2]
    rfl
  | _ => rfl

theorem isMap_back {D : FileDescriptor} {m : Message} {b : Bool} {t t' : FieldType} (h : ResolvesTo D m t t') (hf : (if b then t'.owned else t').isMap = false) :
    t.isMap = false := by
  cases t with
  | map k v =>
    obtain ⟨k', v', rfl, hk, hv⟩ := h
    cases b <;> cases hf
  | _ => rfl

/-- **C118.** If pb-rs writes a file, no message that the file declares has a field (for which there is code) that is a map with maps as keys or
values, and no oneof has a map. -/
theorem C118_maps_partial {junk : Str} {n : Nat} {j : Job} {d d' : Disk} {D : FileDescriptor} (hn : j.noOutput = false)
    (h : writeProto junk n j d = (.ok (), d')) (hs : ∀ text, d.file j.inFile = some text → OneSyntax text)
    (hr : readProtoFile d.file j.search n j.inFile = .ok D) {idx : MessageIndex} {m : Message} (ho : Own D idx) (hm : D.getMessage idx = some m) :
    (∀ f ∈ m.fields, f.visible j.cfg = true → f.typ.flat = true) ∧ ∀ o ∈ m.oneofs, ∀ f ∈ o.fields, f.visible j.cfg = true → f.typ.isMap = false := by
  obtain ⟨p, E, text, _, hE, _, hw⟩ := derives_written hn h hs
  obtain ⟨D', hc, rfl⟩ := compiled_compile hr hE
  have hmsgs : (D'.printed j.cfg).messages = D'.messages := by unfold FileDescriptor.printed; split <;> rfl
  have hget : ∀ i, (D'.printed j.cfg).getMessage i = D'.getMessage i := by intro i; unfold FileDescriptor.getMessage; rw [hmsgs]
  obtain ⟨H, v, hv⟩ := compile_via hc
  obtain ⟨sh, _, _⟩ := compile_shells hc
  obtain ⟨m', hm'⟩ : ∃ m', D'.getMessage idx = some m' := by
    have := v.isSome (i := idx)
    have hm2 : ({ D with owned := j.cfg.owned } : FileDescriptor).getMessage idx = some m := hm
    rw [hm2] at this
    exact Option.isSome_iff_exists.mp this
  obtain ⟨m0, hm0, hf, hoo, ha⟩ := v.message hm'
  cases hm.symm.trans hm0
  have ho' : Own (D'.printed j.cfg) idx := by
    obtain ⟨i, is, t, rfl, ht, hi⟩ := ho
    have := sh [i]
    have ht2 : ({ D with owned := j.cfg.owned } : FileDescriptor).messages[i]? = some t := ht
    simp only [FileDescriptor.getMessage, ht2, Option.bind_some, Message.descend, Option.map_some] at this
    obtain ⟨t', ht', e⟩ := Option.map_eq_some_iff.mp this
    obtain ⟨t'', ht3, e2⟩ := Option.bind_eq_some_iff.mp ht'
    cases e2
    refine ⟨i, is, t', rfl, by rw [hmsgs]; exact ht3, ?_⟩
    have := congrArg Message.imported e
    cases t; cases t'
    exact this.trans hi
  obtain ⟨s, hst, _⟩ := hw idx m' ho' (by rw [hget]; exact hm')
  obtain ⟨h1, h2⟩ := structDef_flat hst (compile_sane_any (D := { D with owned := j.cfg.owned }) (fun m hm => readProtoFile_out n hr m hm) hc hm')
  have vis : ∀ f f' : Field, f'.deprecated = f.deprecated → f.visible j.cfg = true → f'.visible j.cfg = true := by
    intro f f' e hv
    unfold Field.visible at hv ⊢
    rw [e]
    exact hv
  constructor
  · intro f hff hvis
    have c := hv idx m hm f (List.mem_append_left _ hff)
    obtain ⟨t, ht, e⟩ := c.typ
    have := h1 (H idx f) (by rw [hf]; exact List.mem_map_of_mem hff) (vis _ _ c.deprecated hvis)
    rw [e] at this
    exact flat_back ht this
  · intro o hmo f hff hvis
    have c := hv idx m hm f (List.mem_append_right _ (List.mem_flatMap.mpr ⟨o, hmo, hff⟩))
    obtain ⟨t, ht, e⟩ := c.typ
    have : ∃ o' ∈ m'.oneofs, H idx f ∈ o'.fields := by
      have hin : o.fields.map (H idx) ∈ m.oneofs.map (fun o => o.fields.map (H idx)) := List.mem_map.mpr ⟨o, hmo, rfl⟩
      rw [← hoo] at hin
      obtain ⟨o', ho', e'⟩ := List.mem_map.mp hin
      exact ⟨o', ho', by rw [e']; exact List.mem_map_of_mem hff⟩
    obtain ⟨o', ho', hfo'⟩ := this
    have := h2 o' ho' (H idx f) hfo' (vis _ _ c.deprecated hvis)
    rw [e] at this
    exact isMap_back ht this

namespace MapsExample
open RunExample

/-- A message with a map, and one with a map in its oneof and one with a map of maps. -/
def good : Disk := disk [(c! "x.proto", c! "message M { map<string, M> a = 1; oneof o { int32 b = 2; string c = 3; } }")] []
def nested : Disk := disk [(c! "x.proto", c! "message M { map<string, map<int32, int32>> a = 1; }")] []
def nestedKey : Disk := disk [(c! "x.proto", c! "message M { map<map<int32, int32>, int32> a = 1; }")] []
def labelled : Disk := disk [(c! "x.proto", c! "message M { repeated map<int32, int32> a = 1; }")] []
def floats : Disk := disk [(c! "x.proto", c! "message M { map<double, int32> a = 1; }")] []
def messages : Disk := disk [(c! "x.proto", c! "message M { map<M, int32> a = 1; }")] []

/-- What the reader makes of a file that has one field. -/
def shape (d : Disk) : Option (List (Frequency × FieldType)) :=
  match readProtoFile d.file abJob.search 1 abJob.inFile with
  | .ok D => some (D.messages.flatMap (fun m => m.fields.map (fun f => (f.frequency, f.typ))))
  | _ => none

end MapsExample

open MapsExample in
/-- C118's hypotheses are met by a message with a map and a oneof; a map of maps, as key or value, and a map in a oneof (`bad`) fail. -/
theorem C118_example : (writeProto [] 1 abJob good).1.isOk = true ∧
    (∀ text, good.file abJob.inFile = some text → OneSyntax text) ∧
    (readProtoFile good.file abJob.search 1 abJob.inFile).isOk = true ∧
    (writeProto [] 1 abJob nested).1.isOk = false ∧ (writeProto [] 1 abJob nestedKey).1.isOk = false ∧ (writeProto [] 1 abJob bad).1.isOk = false := by
  refine ⟨by decide +kernel, Parse.oneSyntax_file (by decide +kernel), by decide +kernel, by decide +kernel, by decide +kernel, by decide +kernel⟩

open MapsExample in
/-- C118 is false of labels: a map with the label `repeated` is accepted, as the map it would be without the label. -/
theorem C118_refuted_label : (writeProto [] 1 abJob labelled).1.isOk = true ∧ shape labelled = some [(.p2map, .map .int32 .int32)] := by
  refine ⟨by decide +kernel, by decide +kernel⟩

open MapsExample in
/-- C118 is false of the types of keys: a map from floating-point numbers is accepted. -/
theorem C118_refuted_float : (writeProto [] 1 abJob floats).1.isOk = true ∧ shape floats = some [(.p2map, .map .double .int32)] := by
  refine ⟨by decide +kernel, by decide +kernel⟩

open MapsExample in
/-- C118 is false of the types of keys: a map from messages is accepted. -/
theorem C118_refuted_message : (writeProto [] 1 abJob messages).1.isOk = true := by decide +kernel

end QP.Rust
