import Verif.Proofs.Getters
import Verif.Props.Generated
set_option linter.unusedVariables false
/-!
# Custom defaults of optional fields (C87)
-/

namespace QP.Rust
open QP.Pbrs QP.Gen

/-- Of a message of the file: the constants with the custom defaults of its optional fields are in the text, and with
`--generate-getters` the getters. -/
theorem C87_file {path : FileDescriptor → FieldType → Str} {cfg : Config} {D D' : FileDescriptor} {filename : Str} {services : Nat} {d : Doc}
    (hP : Parsed D) (h : D.compile path cfg = .ok D') (hw : (D'.printed cfg).write cfg filename services = .ok d)
    {i : Nat} {is : List Nat} {t m : Message} (ht : D'.messages[i]? = some t) (hi : t.imported = false) (hm : D'.getMessage (i :: is) = some m)
    (hf : D'.syntax_ = .proto2 → ∀ f ∈ m.fields, f.frequency ≠ .p3optional) :
    ∃ cs gs, constItems (D'.printed cfg) cfg m = some cs ∧ getterItems (D'.printed cfg) cfg m = some gs ∧
      (cs ≠ [] → ∃ l, structDeclares (D'.printed cfg) cfg m.index = some l ∧ Doc.Has d (implBlock m.name l (cs.map ConstItem.doc)) ∧
        (cfg.generateGetters = true → Doc.Has d (implBlock m.name l (gs.map GetterItem.doc)))) := by
  have hmsgs : (D'.printed cfg).messages = D'.messages := by unfold FileDescriptor.printed; split <;> rfl
  have hsyn : (D'.printed cfg).syntax_ = D'.syntax_ := by unfold FileDescriptor.printed; split <;> rfl
  have hm2 : (D'.printed cfg).getMessage (i :: is) = some m := by
    rw [← hm]; unfold FileDescriptor.getMessage; rw [hmsgs]
  obtain ⟨d', hd', hh⟩ := file_has hw (hmsgs ▸ ht) hi hm2
  obtain ⟨cs, gs, h1, h2, h3⟩ := message_items (compile_sane hP h hm) (by rw [hsyn]; exact hf) hd'
  refine ⟨cs, gs, h1, h2, fun hne => ?_⟩
  obtain ⟨l, hl, a, b⟩ := h3 hne
  exact ⟨l, hl, Has.trans hh a, fun hg => Has.trans hh (b hg)⟩

/-- The same for the file that pb-rs leaves on the disk. -/
theorem C87_written_partial {junk : Str} {n : Nat} {j : Job} {d d' : Disk} {D : FileDescriptor} (hn : j.noOutput = false)
    (h : writeProto junk n j d = (.ok (), d')) (hr : readProtoFile d.file j.search n j.inFile = .ok D) (hf : NoNestedMaps D) :
    ∃ p E text, j.out n d = some p ∧ j.compiled n d = some E ∧ d'.file p = some text.str ∧
      ∀ i is t m, E.messages[i]? = some t → t.imported = false → E.getMessage (i :: is) = some m →
        (E.syntax_ = .proto2 → ∀ f ∈ m.fields, f.frequency ≠ .p3optional) →
        ∃ cs gs, constItems E j.cfg m = some cs ∧ getterItems E j.cfg m = some gs ∧
          (cs ≠ [] → ∃ l, structDeclares E j.cfg m.index = some l ∧ Doc.Has text (implBlock m.name l (cs.map ConstItem.doc)) ∧
            (j.cfg.generateGetters = true → Doc.Has text (implBlock m.name l (gs.map GetterItem.doc)))) := by
  obtain ⟨p, t, hp, ht, hd⟩ := C73_written hn h
  unfold Job.text at ht
  obtain ⟨E, hE, ht⟩ := Option.bind_eq_some_iff.mp ht
  obtain ⟨D', hc, hEp⟩ := compiled_compile hr hE
  subst hEp
  cases hw : (D'.printed j.cfg).write j.cfg (splitSlash j.inFile).2 (servicesOf ((d.file j.inFile).getD [])) with
  | error e => simp only [hw] at ht; cases ht
  | ok text =>
    simp only [hw] at ht
    cases ht
    refine ⟨p, _, text, hp, hE, hd, ?_⟩
    have hmsgs : (D'.printed j.cfg).messages = D'.messages := by unfold FileDescriptor.printed; split <;> rfl
    have hsyn : (D'.printed j.cfg).syntax_ = D'.syntax_ := by unfold FileDescriptor.printed; split <;> rfl
    intro i is t m h1 h2 h3 h4
    rw [hmsgs] at h1
    exact C87_file (parsed_owned _ (C68_parsed hr hf)) hc hw h1 h2 (by rw [← h3]; unfold FileDescriptor.getMessage; rw [hmsgs]) (hsyn ▸ h4)

/-- A getter returns the value of its field, and the custom default if the field is not set. Nothing else is assumed about the message
than that its fields have different names and that the field is a value of its type. -/
theorem C87_getter {D : FileDescriptor} {cfg : Config} {m : Message} (hs : MessageSane m) {fs : List (Str × Ty)} {cs : List ConstItem}
    (hfs : structFields D cfg m = some fs) (hnd : (fs.map (·.1)).Nodup) (hcs : constItems D cfg m = some cs)
    {f : Field} {s : Str} (hf : f ∈ m.fields) (hd : Defaulted D cfg f s) {T : Ty} (hT : constTy D cfg f.typ = some T) :
    ∃ (g : GetterItem) (i : Nat), getterItem D cfg f = some g ∧ (members cfg m)[i]? = some (Member.field f) ∧
      ∀ (slots : List RVal) (K : Ty → Str → RVal),
        (slots[i]? = some .none → g.call ⟨fs, slots, cs, K⟩ = some (K T.erase s)) ∧
        ∀ x, slots[i]? = some (.some x) → g.call ⟨fs, slots, cs, K⟩ = some x := by
  have hsrc : Sum.inl f ∈ sources cfg m := List.mem_append_left _ (List.mem_map_of_mem (List.mem_filter.mpr ⟨hf, hd.visible⟩))
  obtain ⟨i, hi⟩ := List.mem_iff_getElem?.mp hsrc
  have hmem : (members cfg m)[i]? = some (.field f) := by rw [members_sources, List.getElem?_map, hi]; rfl
  obtain ⟨b, hb, hbt⟩ := mapM_get (structFields_sources hfs) hi
  obtain ⟨ft, hft, rfl⟩ := Option.map_eq_some_iff.mp hbt
  obtain ⟨T', hT', rfl⟩ := Option.map_eq_some_iff.mp hft
  have hbox : f.boxed = false := by
    cases hb : f.boxed
    · rfl
    · obtain ⟨j, hj⟩ := (hs.fields f hf).boxed hb
      have := hd.scalar.1
      rw [hj] at this
      cases this
  have hbb : fs[i]? = some (f.name, .option T') := by
    rw [hb, hbox, hd.optional]
    rfl
  obtain ⟨g, hg⟩ := getterItem_exists hT'
  have hidx := findIdx_name (g := fun x : Str × Ty => x.1) hnd hbb
  -- the constant
  have hdf : f ∈ defaultedFields D cfg m := List.mem_filter.mpr ⟨hf, by simpa using ⟨s, hd⟩⟩
  obtain ⟨k, hk⟩ := List.mem_iff_getElem?.mp hdf
  obtain ⟨c, hck, hc⟩ := mapM_get hcs hk
  have hcn : c.name = c! "DEFAULT_" ++ f.name := by
    unfold constItem at hc
    rw [hd.default] at hc
    obtain ⟨_, _, rfl⟩ := Option.map_eq_some_iff.mp hc
    rfl
  have hnames : cs.map (·.name) = (defaultedFields D cfg m).map (fun f => c! "DEFAULT_" ++ f.name) := by
    have : ∀ {l : List Field} {cs : List ConstItem}, l.mapM (constItem D cfg) = some cs → cs.map (·.name) = l.map (fun f => c! "DEFAULT_" ++ f.name) := by
      intro l
      induction l with
      | nil => intro cs h; cases h; rfl
      | cons a l ih =>
        intro cs h
        rw [List.mapM_cons] at h
        obtain ⟨b, hb, h⟩ := Option.bind_eq_some_iff.mp h
        obtain ⟨bs, hbs, h⟩ := Option.bind_eq_some_iff.mp h
        cases h
        have hb' : b.name = c! "DEFAULT_" ++ a.name := by
          unfold constItem at hb
          obtain ⟨x, hx, hb⟩ := Option.bind_eq_some_iff.mp hb
          obtain ⟨_, _, rfl⟩ := Option.map_eq_some_iff.mp hb
          rfl
        rw [List.map_cons, List.map_cons, ih hbs, hb']
    exact this hcs
  have hsub : ((defaultedFields D cfg m).map (·.name)).Nodup := by
    have h1 : (defaultedFields D cfg m).map (·.name) = ((shownFields cfg m).filter fun f => ∃ s, Defaulted D cfg f s).map (·.name) := by
      unfold defaultedFields shownFields
      rw [List.filter_filter]
      congr 1
      refine List.filter_congr fun f _ => ?_
      by_cases h : ∃ s, Defaulted D cfg f s
      · obtain ⟨s, h'⟩ := h
        have : f.visible cfg = true := h'.visible
        rw [this, Bool.and_true]
      · simp only [h, decide_false, Bool.false_and]
    have h2 : (shownFields cfg m).map (·.name) <+: fs.map (·.1) := by
      have : ∀ {l : List (Field ⊕ OneOf)} {fs : List (Str × Ty)}, l.mapM (memberTy D cfg) = some fs →
          fs.map (·.1) = l.map fun x => match x with | .inl f => f.name | .inr o => o.name := by
        intro l
        induction l with
        | nil => intro fs h; cases h; rfl
        | cons a l ih =>
          intro fs h
          rw [List.mapM_cons] at h
          obtain ⟨b, hb, h⟩ := Option.bind_eq_some_iff.mp h
          obtain ⟨bs, hbs, h⟩ := Option.bind_eq_some_iff.mp h
          cases h
          rw [List.map_cons, List.map_cons, ih hbs]
          cases a <;> (obtain ⟨_, _, rfl⟩ := Option.map_eq_some_iff.mp hb; rfl)
      rw [this (structFields_sources hfs)]
      unfold sources
      rw [List.map_append, List.map_map]
      exact List.prefix_append _ _
    rw [h1]
    exact (List.Nodup.sublist h2.sublist hnd).sublist (List.filter_sublist.map _)
  have hcnd : (cs.map (·.name)).Nodup := by
    rw [hnames]
    have : (defaultedFields D cfg m).map (fun f => c! "DEFAULT_" ++ f.name) = ((defaultedFields D cfg m).map (·.name)).map (fun n => c! "DEFAULT_" ++ n) := by
      rw [List.map_map]; rfl
    rw [this]
    exact List.Pairwise.map _ (fun a b h e => h (List.append_cancel_left e)) hsub
  have hfind := find_name (g := ConstItem.name) hcnd (List.mem_of_getElem? hck)
  rw [hcn] at hfind
  have hTT : T.erase = (match f.typ with | .string_ => Ty.ref .str | .bytes_ => .ref .slice | _ => T'.erase) := by
    cases hty : f.typ <;> rw [hty] at hT hT' <;> simp only [constTy] at hT <;>
      first | (cases hT; rfl) | (rw [hT'] at hT; cases hT; rfl)
  refine ⟨g, i, hg, hmem, fun slots K => ⟨fun hv => ?_, fun x hv => ?_⟩⟩
  · rw [getter_call hT' hg hidx hbb hv hc hd.default hfind (Or.inl rfl), hTT]
    rfl
  · rw [getter_call hT' hg hidx hbb hv hc hd.default hfind (Or.inr ⟨x, rfl⟩)]
    rfl

/-! ## An example -/

namespace GettersExample
open RunExample

/-- A message with two custom defaults. -/
def proto : Str := c! "message M { optional sint64 n = 1 [default = 7]; optional string s = 2 [default = \"ab\"]; optional bool b = 3; }"

def job : Job := { inFile := c! "x.proto", outFile := c! "x.rs", cfg := { generateGetters := true } }
def before : Disk := disk [(c! "x.proto", proto)] []

def fN : Field := { name := c! "n", frequency := .p2optional, typ := .sint64, number := 1, default := some (c! "7i64") }
def fS : Field := { name := c! "s", frequency := .p2optional, typ := .stringCow, number := 2, default := some (c! "Cow::Borrowed(\"ab\")") }
def fB : Field := { name := c! "b", frequency := .p2optional, typ := .bool, number := 3 }

/-- pb-rs reads the file and prints a message with these fields, the first two of which have custom defaults. -/
theorem compiled : ∃ E m, job.compiled 1 before = some E ∧ E.getMessage [0] = some m ∧ E.messages.length = 1 ∧ m.fields = [fN, fS, fB] ∧ m.oneofs = [] ∧
    E.syntax_ = .proto2 := by
  have h : (match job.compiled 1 before with
    | some E => decide (E.messages.length = 1 ∧ (E.getMessage [0]).map (fun m => (m.fields, m.oneofs)) = some ([fN, fS, fB], []) ∧ E.syntax_ = .proto2)
    | none => false) = true := by decide +kernel
  cases hE : job.compiled 1 before with
  | none => rw [hE] at h; cases h
  | some E =>
    rw [hE] at h
    simp only [decide_eq_true_eq] at h
    obtain ⟨h1, h2, h3⟩ := h
    obtain ⟨m, hm, e⟩ := Option.map_eq_some_iff.mp h2
    obtain ⟨e1, e2⟩ := Prod.mk.inj e
    exact ⟨E, m, rfl, hm, h1, e1, e2, h3⟩

/-- So the conditions of `C87_getter` can be met: the getter of `s` returns the field if it is set, and the default if it is not. -/
theorem C87_example : ∃ E m fs cs g, job.compiled 1 before = some E ∧ E.getMessage [0] = some m ∧ structFields E job.cfg m = some fs ∧
    constItems E job.cfg m = some cs ∧ cs.length = 2 ∧ getterItem E job.cfg fS = some g ∧
    ∀ K : Ty → Str → RVal, g.call ⟨fs, [.none, .none, .none], cs, K⟩ = some (K .cowStr (c! "Cow::Borrowed(\"ab\")")) ∧
      g.call ⟨fs, [.none, .some (.bytes [0x61#8]), .none], cs, K⟩ = some (.bytes [0x61#8]) := by
  obtain ⟨E, m, hE, hm, _, hf, ho, hsyn⟩ := compiled
  have hs : MessageSane m := by
    refine ⟨fun f h => ?_, fun o h => by rw [ho] at h; cases h⟩
    rw [hf] at h
    simp only [List.mem_cons, List.not_mem_nil, or_false] at h
    rcases h with rfl | rfl | rfl <;> exact ⟨rfl, fun h => by cases h⟩
  have hfs : structFields E job.cfg m = some [(c! "n", .option .i64), (c! "s", .option .cowStr), (c! "b", .option .bool)] := by
    unfold structFields shownFields
    rw [hf, ho]
    rfl
  have hdf : defaultedFields E job.cfg m = [fN, fS] := by
    have h1 : ∃ s, Defaulted E job.cfg fN s := ⟨_, hsyn, rfl, ⟨rfl, rfl⟩, rfl, rfl⟩
    have h2 : ∃ s, Defaulted E job.cfg fS s := ⟨_, hsyn, rfl, ⟨rfl, rfl⟩, rfl, rfl⟩
    have h3 : ¬ ∃ s, Defaulted E job.cfg fB s := by rintro ⟨s, h⟩; cases h.default
    unfold defaultedFields
    rw [hf]
    simp only [List.filter_cons, List.filter_nil, h1, h2, h3, decide_true, decide_false, if_true, Bool.false_eq_true, if_false]
  have hcs : constItems E job.cfg m = some [⟨c! "DEFAULT_n", .i64, c! "7i64"⟩, ⟨c! "DEFAULT_s", .cowStr, c! "Cow::Borrowed(\"ab\")"⟩] := by
    unfold constItems
    rw [hdf]
    rfl
  obtain ⟨g, i, hg, hi, hc⟩ := C87_getter hs hfs (by decide) hcs (f := fS) (by rw [hf]; simp) ⟨hsyn, rfl, ⟨rfl, rfl⟩, rfl, rfl⟩ (T := .cowStr) rfl
  have hi1 : i = 1 := by
    have e : members job.cfg m = [.field fN, .field fS, .field fB] := by
      unfold members
      rw [hf, ho]
      rfl
    rw [e] at hi
    match i, hi with
    | 0, hi => exact absurd (congrArg (Option.map fun x => match x with | Member.field f => f.number | _ => 0) hi) (by decide)
    | 1, _ => rfl
    | 2, hi => exact absurd (congrArg (Option.map fun x => match x with | Member.field f => f.number | _ => 0) hi) (by decide)
    | i + 3, hi => simp at hi
  subst hi1
  exact ⟨E, m, _, _, g, hE, hm, hfs, hcs, rfl, hg, fun K => ⟨(hc _ K).1 rfl, (hc _ K).2 _ rfl⟩⟩

end GettersExample

open RunExample in
/-- With `--generate-getters`, a field `size` with a custom default has a getter `get_size`, which hides `MessageWrite::get_size` of its
message: the generated `get_size` of another message calls it, and gets an `i32` where a `usize` is needed. The generated file does not
compile. -/
theorem C87_refuted_get_size : ∃ (d : Disk) (j : Job) (t : Str), j.cfg.generateGetters = true ∧ (writeProto [] 1 j d).1.isOk = true ∧
    (writeProto [] 1 j d).2.file (c! "x.rs") = some t ∧
    c! "impl M {\n    pub fn get_size(&self) -> i32 {\n" <:+: t ∧
    c! "pub struct N {\n    pub m: Option<M>,\n}" <:+: t ∧
    c! "self.m.as_ref().map_or(0, |m| 1 + sizeof_len((m).get_size()))" <:+: t := by
  refine ⟨disk [(c! "x.proto", c! "message M { optional int32 size = 1 [default = 7]; } message N { optional M m = 1; }")] [],
    { inFile := c! "x.proto", outFile := c! "x.rs", cfg := { generateGetters := true } },
    ((writeProto [] 1 { inFile := c! "x.proto", outFile := c! "x.rs", cfg := { generateGetters := true } }
      (disk [(c! "x.proto", c! "message M { optional int32 size = 1 [default = 7]; } message N { optional M m = 1; }")] [])).2.file (c! "x.rs")).getD [],
    rfl, by decide +kernel, by decide +kernel, by decide +kernel, by decide +kernel, by decide +kernel⟩

end QP.Rust
