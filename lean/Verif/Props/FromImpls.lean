import Verif.Model.Pbrs.FromImpls
import Verif.Spec.FromImpls
import Verif.Proofs.TreesExist
import Verif.Proofs.InScope
import Verif.Props.Run
/-!
# C115: conversions into oneofs (the feature `generateImplFromForEnums`)
-/

set_option linter.unusedVariables false

namespace QP.Rust
open QP.Pbrs QP.Gen RunExample

section
variable {D : FileDescriptor} {cfg : Config}

/-- `i` is the conversion into the first of the fields whose type is written like its own. -/
def FirstOf (D : FileDescriptor) (cfg : Config) (fs : List Field) (i : FromImpl) : Prop :=
  ∃ before f after, fs = before ++ f :: after ∧ i.variant = f.name ∧ tyOf D cfg f.typ = some i.ty ∧
    ∀ g ∈ before, ∀ t, tyOf D cfg g.typ = some t → t.doc.str ≠ i.ty.doc.str

/-- What the loop writes. -/
theorem fromLoop_spec {name : Str} {fs : List Field} : ∀ {handled : List Str} {text : Doc}, OneOf.fromLoop D cfg name handled fs = .ok text →
    ∃ is : List FromImpl, text = Doc.concat (is.map (FromImpl.doc (c! "OneOf" ++ name))) ∧ (is.map (·.ty.doc.str)).Nodup ∧
      (∀ i ∈ is, i.ty.doc.str ∉ handled ∧ FirstOf D cfg fs i) ∧
      ∀ f ∈ fs, ∃ t, tyOf D cfg f.typ = some t ∧ (t.doc.str ∈ handled ∨ ∃ i ∈ is, i.ty.doc.str = t.doc.str) := by
  induction fs with
  | nil =>
    intro handled text h
    cases h
    exact ⟨[], rfl, .nil, fun i hi => (List.not_mem_nil hi).elim, fun f hf => (List.not_mem_nil hf).elim⟩
  | cons f fs ih =>
    intro handled text h
    rw [OneOf.fromLoop] at h
    cases ht : f.typ.typeText D cfg with
    | error e => rw [ht] at h; cases h
    | ok d =>
      obtain ⟨T, hT⟩ := ty_exists ht
      have hd : d = T.doc := by
        have := ty_text hT
        rw [ht] at this
        exact Except.ok.inj this
      subst hd
      rw [ht] at h
      change (if handled.contains T.doc.str = true then _ else _) = _ at h
      split at h
      · rename_i hc
        have hc : T.doc.str ∈ handled := by simpa using hc
        obtain ⟨is, h1, h2, h3, h4⟩ := ih h
        refine ⟨is, h1, h2, fun i hi => ⟨(h3 i hi).1, ?_⟩, fun g hg => ?_⟩
        · obtain ⟨b, g, a, e, g1, g2, g3⟩ := (h3 i hi).2
          refine ⟨f :: b, g, a, by rw [e]; rfl, g1, g2, fun x hx t hxt => ?_⟩
          rcases List.mem_cons.mp hx with rfl | hx
          · rw [hT] at hxt
            cases hxt
            intro he
            exact (h3 i hi).1 (he ▸ hc)
          · exact g3 x hx t hxt
        · rcases List.mem_cons.mp hg with rfl | hg
          · exact ⟨T, hT, Or.inl hc⟩
          · exact h4 g hg
      · rename_i hc
        have hc : T.doc.str ∉ handled := by simpa using hc
        cases hr : OneOf.fromLoop D cfg name (handled ++ [T.doc.str]) fs with
        | error e => rw [hr] at h; cases h
        | ok rest =>
          rw [hr] at h
          cases h
          obtain ⟨is, h1, h2, h3, h4⟩ := ih hr
          refine ⟨⟨T, f.name⟩ :: is, ?_, ?_, fun i hi => ?_, fun g hg => ?_⟩
          · rw [h1]
            rfl
          · rw [List.map_cons, List.nodup_cons]
            refine ⟨fun hm => ?_, h2⟩
            obtain ⟨i, hi, he⟩ := List.mem_map.mp hm
            exact (h3 i hi).1 (by rw [he]; exact List.mem_append_right _ (List.mem_singleton.mpr rfl))
          · rcases List.mem_cons.mp hi with rfl | hi'
            · exact ⟨hc, [], f, fs, rfl, rfl, hT, fun g hg => (List.not_mem_nil hg).elim⟩
            · refine ⟨fun hm => (h3 i hi').1 (List.mem_append_left _ hm), ?_⟩
              obtain ⟨b, g, a, e, g1, g2, g3⟩ := (h3 i hi').2
              refine ⟨f :: b, g, a, by rw [e]; rfl, g1, g2, fun x hx t hxt => ?_⟩
              rcases List.mem_cons.mp hx with rfl | hx
              · rw [hT] at hxt
                cases hxt
                intro he
                exact (h3 i hi').1 (by rw [← he]; exact List.mem_append_right _ (List.mem_singleton.mpr rfl))
              · exact g3 x hx t hxt
          · rcases List.mem_cons.mp hg with rfl | hg
            · exact ⟨T, hT, Or.inr ⟨_, List.mem_cons_self .., rfl⟩⟩
            · obtain ⟨t, h5, h6⟩ := h4 g hg
              refine ⟨t, h5, ?_⟩
              rcases h6 with h6 | ⟨i, hi, he⟩
              · rcases List.mem_append.mp h6 with h6 | h6
                · exact Or.inl h6
                · exact Or.inr ⟨_, List.mem_cons_self .., (List.mem_singleton.mp h6).symm⟩
              · exact Or.inr ⟨i, List.mem_cons_of_mem _ hi, he⟩

/-- What is written for a oneof: conversions, no two of them from the same type, one for the type of each member that is shown, into the first member
of that type. -/
theorem C115_written {o : OneOf} {text : Doc} (h : o.writeFromImpls D cfg = .ok text) :
    ∃ is : List FromImpl, text = Doc.concat (is.map (FromImpl.doc (c! "OneOf" ++ o.name))) ∧ Coherent is ∧
      (∀ i ∈ is, FirstOf D cfg (o.shown cfg) i) ∧
      ∀ f ∈ o.shown cfg, ∃ t, tyOf D cfg f.typ = some t ∧ ∃ i ∈ is, i.ty.doc.str = t.doc.str := by
  obtain ⟨is, h1, h2, h3, h4⟩ := fromLoop_spec h
  refine ⟨is, h1, ?_, fun i hi => (h3 i hi).2, fun f hf => ?_⟩
  · unfold Coherent
    have : (is.map (·.ty.doc.str)) = (is.map (·.ty)).map (·.doc.str) := by simp
    rw [this] at h2
    exact List.Pairwise.of_map _ (fun a b hab he => hab (by rw [he])) h2
  · obtain ⟨t, h5, h6 | h6⟩ := h4 f hf
    · exact (List.not_mem_nil h6).elim
    · exact ⟨t, h5, h6⟩

/-- For oneofs without borrowed and without boxed members: Rust accepts all the conversions, and a value of the type of a member becomes the first
member whose type is written like that. -/
theorem C115_accepted_partial {o : OneOf} {text : Doc} {vs : List (Str × Ty)} (h : o.writeFromImpls D cfg = .ok text) (hv : variantTys D cfg o = some vs)
    (hl : o.hasLifetime D cfg = some false) (hbo : ∀ v ∈ vs, v.2.borrows = false) (hbx : ∀ f ∈ o.shown cfg, f.boxed = false) :
    ∃ is : List FromImpl, text = Doc.concat (is.map (FromImpl.doc (c! "OneOf" ++ o.name))) ∧ Coherent is ∧ (∀ i ∈ is, i.Accepted false vs) ∧
      ∀ v ∈ vs, ∃ k t, vs.findIdx? (fun w => decide (w.2.doc.str = v.2.doc.str)) = some k ∧ (vs[k]?.map (·.2)) = some t ∧ ∀ x, Converts vs is t x (.choice k x) := by
  obtain ⟨is, h1, h2, h3, h4⟩ := C115_written h
  have hget : ∀ {l : List Field} {ws : List (Str × Ty)}, (∀ f ∈ l, f.boxed = false) →
      l.mapM (fun f => (tyOf D cfg f.typ).map fun t => (f.name, if f.boxed then Ty.box t else t)) = some ws →
      l.mapM (fun f => (tyOf D cfg f.typ).map fun t => (f.name, t)) = some ws := by
    intro l ws hl h
    rw [← h]
    refine mapM_congr fun f hf => ?_
    rw [hl f hf]
    rfl
  have hv' := hget hbx hv
  have hpos : ∀ i ∈ is, ∃ k, vs[k]? = some (i.variant, i.ty) ∧ vs.findIdx? (fun w => decide (w.2.doc.str = i.ty.doc.str)) = some k := by
    intro i hi
    obtain ⟨b, f, a, e, g1, g2, g3⟩ := h3 i hi
    rw [e] at hv'
    have hlen := mapM_length hv'
    have hk : vs[b.length]? = some (i.variant, i.ty) := by
      obtain ⟨y, hy, hy'⟩ := mapM_get hv' (j := b.length) (a := f) (by simp)
      rw [g2] at hy'
      cases hy'
      rw [hy, g1]
    refine ⟨b.length, hk, ?_⟩
    rw [List.findIdx?_eq_some_iff_getElem]
    have hlt : b.length < vs.length := by rw [hlen]; simp
    refine ⟨hlt, ?_, fun j hj => ?_⟩
    · rw [List.getElem?_eq_getElem hlt] at hk
      rw [Option.some.inj hk]
      simp
    · obtain ⟨g, hg⟩ : ∃ g, b[j]? = some g := ⟨b[j], List.getElem?_eq_getElem hj⟩
      obtain ⟨y, hy, hy'⟩ := mapM_get hv' (j := j) (a := g) (by rw [List.getElem?_append_left hj]; exact hg)
      rw [Option.map_eq_some_iff] at hy'
      obtain ⟨t, ht, rfl⟩ := hy'
      have hne := g3 g (List.mem_of_getElem? hg) t ht
      have hlt' : j < vs.length := by omega
      rw [List.getElem?_eq_getElem hlt'] at hy
      rw [Option.some.inj hy]
      simpa using hne
  refine ⟨is, h1, h2, fun i hi => ?_, fun v hvm => ?_⟩
  · obtain ⟨k, hk, _⟩ := hpos i hi
    have hmem := List.mem_of_getElem? hk
    exact ⟨hbo _ hmem, rfl, hmem⟩
  · obtain ⟨f, hf, h5⟩ := mapM_back hv' v hvm
    rw [Option.map_eq_some_iff] at h5
    obtain ⟨t, ht, rfl⟩ := h5
    obtain ⟨t', ht', i, hi, he⟩ := h4 f hf
    rw [ht] at ht'
    cases ht'
    obtain ⟨k, hk, hk'⟩ := hpos i hi
    refine ⟨k, i.ty, ?_, by rw [hk]; rfl, fun x => ⟨i, hi, rfl, k, hk, rfl⟩⟩
    dsimp only
    rw [← he]
    exact hk'

/-- A boxed member (a recursive message): its conversion passes a `T` where a `Box<T>` is expected, Rust rejects it – if members have different names
and it is the first member of its type. -/
theorem C115_refuted_boxed {o : OneOf} {text : Doc} {vs : List (Str × Ty)} (h : o.writeFromImpls D cfg = .ok text) (hv : variantTys D cfg o = some vs)
    (hn : (vs.map (·.1)).Nodup) {f : Field} {rest : List Field} (hf : o.shown cfg = f :: rest) (hb : f.boxed = true) (l : Bool) :
    ∃ is : List FromImpl, text = Doc.concat (is.map (FromImpl.doc (c! "OneOf" ++ o.name))) ∧ ∃ i ∈ is, i.variant = f.name ∧ ¬ i.Accepted l vs := by
  obtain ⟨is, h1, h2, h3, h4⟩ := C115_written h
  obtain ⟨t, ht, i, hi, he⟩ := h4 f (by rw [hf]; exact List.mem_cons_self ..)
  obtain ⟨b, g, a, e, g1, g2, g3⟩ := h3 i hi
  cases b with
  | cons x b =>
    rw [hf] at e
    obtain ⟨rfl, _⟩ := List.cons.inj e
    exact absurd he.symm (g3 f (List.mem_cons_self ..) t ht)
  | nil =>
    rw [hf] at e
    obtain ⟨rfl, _⟩ := List.cons.inj e
    refine ⟨is, h1, i, hi, g1, fun hacc => ?_⟩
    have hv2 := hv
    unfold variantTys at hv2
    rw [hf, List.mapM_cons] at hv2
    simp only [Option.bind_eq_bind, Option.pure_def] at hv2
    obtain ⟨y, hy, hv2⟩ := Option.bind_eq_some_iff.mp hv2
    obtain ⟨ys, _, hv2⟩ := Option.bind_eq_some_iff.mp hv2
    cases hv2
    rw [g2, hb] at hy
    cases hy
    rcases List.mem_cons.mp hacc.typed with he' | he'
    · have := congrArg Prod.snd he'
      have : i.ty = Ty.box i.ty := this
      exact absurd (congrArg sizeOf this) (by simp)
    · rw [List.map_cons, List.nodup_cons] at hn
      exact hn.1 (List.mem_map.mpr ⟨_, he', g1⟩)

/-- A oneof with a lifetime: Rust rejects all of its conversions. -/
theorem C115_refuted_lifetime {o : OneOf} {text : Doc} {vs : List (Str × Ty)} (h : o.writeFromImpls D cfg = .ok text) (hl : o.hasLifetime D cfg = some true)
    (hne : o.shown cfg ≠ []) :
    ∃ is : List FromImpl, text = Doc.concat (is.map (FromImpl.doc (c! "OneOf" ++ o.name))) ∧ is ≠ [] ∧ ∀ i ∈ is, ¬ i.Accepted true vs := by
  obtain ⟨is, h1, h2, h3, h4⟩ := C115_written h
  refine ⟨is, h1, fun e => ?_, fun i hi hacc => Bool.noConfusion hacc.result⟩
  cases ho : o.shown cfg with
  | nil => exact hne ho
  | cons f fs =>
    obtain ⟨t, _, i, hi, _⟩ := h4 f (by rw [ho]; exact List.mem_cons_self ..)
    rw [e] at hi
    cases hi

end

/-! ## Examples -/

namespace FromExample

/-- `oneof x { int32 a = 1; sint32 b = 2; bool c = 3; int64 d = 4 [deprecated = true]; }` -/
def plain : OneOf := { name := c! "x", fields := [{ name := c! "a", frequency := .p3default, typ := .int32, number := 1 },
  { name := c! "b", frequency := .p3default, typ := .sint32, number := 2 }, { name := c! "c", frequency := .p3default, typ := .bool, number := 3 },
  { name := c! "d", frequency := .p3default, typ := .int64, number := 4, deprecated := true }] }

/-- `oneof y { M a = 1; int32 b = 2; }` in `message M`: the first member is boxed. -/
def boxed : OneOf := { name := c! "y", fields := [{ name := c! "a", frequency := .p3default, typ := .message [0], number := 1, boxed := true },
  { name := c! "b", frequency := .p3default, typ := .int32, number := 2 }] }

/-- `oneof z { int32 a = 1; string b = 2; }` -/
def borrowed : OneOf := { name := c! "z", fields := [{ name := c! "a", frequency := .p3default, typ := .int32, number := 1 },
  { name := c! "b", frequency := .p3default, typ := .stringCow, number := 2 }] }

/-- `message M { oneof y { M a = 1; int32 b = 2; } }` -/
def file : FileDescriptor := { messages := [{ name := c! "M", fields := [], oneofs := [boxed], index := [0] }] }

end FromExample

open FromExample

/-- The first oneof: two conversions, `i32` becomes the first member. -/
theorem C115_example : ∃ is : List FromImpl, ∃ text, plain.writeFromImpls {} {} = .ok text ∧ text = Doc.concat (is.map (FromImpl.doc (c! "OneOfx"))) ∧
    text.str = c! "impl From<i32> for OneOfx {\n   fn from(f: i32) -> OneOfx {\n      OneOfx::a(f)\n   }\n}\nimpl From<bool> for OneOfx {\n   fn from(f: bool) -> OneOfx {\n      OneOfx::c(f)\n   }\n}\n" ∧
    Coherent is ∧ (∀ i ∈ is, i.Accepted false [(c! "a", .i32), (c! "b", .i32), (c! "c", .bool)]) := by
  cases h : plain.writeFromImpls {} {} with
  | error e =>
    have : (plain.writeFromImpls {} {}).isOk = true := by decide +kernel
    rw [h] at this
    cases this
  | ok text =>
    obtain ⟨is, h1, h2, h3, _⟩ := C115_accepted_partial (vs := [(c! "a", .i32), (c! "b", .i32), (c! "c", .bool)]) h (by decide +kernel) (by decide +kernel)
      (by decide +kernel) (by decide +kernel)
    refine ⟨is, text, rfl, h1, ?_, h2, h3⟩
    have : (plain.writeFromImpls {} {}).toOption.map (·.str) = some (c! "impl From<i32> for OneOfx {\n   fn from(f: i32) -> OneOfx {\n      OneOfx::a(f)\n   }\n}\nimpl From<bool> for OneOfx {\n   fn from(f: bool) -> OneOfx {\n      OneOfx::c(f)\n   }\n}\n") := by decide +kernel
    rw [h] at this
    exact Option.some.inj this

/-- The second oneof meets the conditions of `C115_refuted_boxed`. -/
example : (boxed.writeFromImpls file {}).isOk = true ∧ ((variantTys file {} boxed).map (·.map (·.1))) = some [c! "a", c! "b"] ∧
    ∃ f rest, boxed.shown {} = f :: rest ∧ f.boxed = true := ⟨by decide +kernel, by decide +kernel, _, _, rfl, rfl⟩

/-- The third meets those of `C115_refuted_lifetime`. -/
example : (borrowed.writeFromImpls {} {}).isOk = true ∧ borrowed.hasLifetime {} {} = some true ∧ borrowed.shown {} ≠ [] :=
  ⟨by decide +kernel, by decide +kernel, by decide +kernel⟩

end QP.Rust
