import Verif.Spec.Labels
import Verif.Spec.Paths
import Verif.Proofs.Heads
import Verif.Proofs.Panics
import Verif.Proofs.Enums
import Verif.Props.Generated
/-!
# The labels of fields, and what else is true without conditions on types
-/

set_option linter.unusedVariables false

namespace QP.Pbrs.Parse
open Nom

variable {pan : Prop} {s : Str}

/-- No field has a label of proto3. -/
inductive NoP3 : Message → Prop where
  | mk {m : Message} : (∀ f ∈ m.fields, f.frequency.optional = .p2optional) → (∀ n ∈ m.messages, NoP3 n) → NoP3 m

def EventNoP3 : MessageEvent → Prop
  | .message m => NoP3 m
  | .field f => f.frequency.optional = .p2optional
  | _ => True

theorem apply_noP3 {m : Message} {e : MessageEvent} (hm : NoP3 m) (he : EventNoP3 e) : NoP3 (MessageEvent.apply m e) := by
  cases hm with
  | mk h1 h3 =>
    cases e with
    | field f =>
      refine ⟨?_, h3⟩
      intro g hg
      rcases List.mem_append.mp hg with hg | hg
      · exact h1 g hg
      · rw [List.mem_singleton.mp hg]; exact he
    | message n =>
      refine ⟨h1, ?_⟩
      intro g hg
      rcases List.mem_append.mp hg with hg | hg
      · exact h3 g hg
      · rw [List.mem_singleton.mp hg]; exact he
    | oneof o => exact ⟨h1, h3⟩
    | enumerator e => exact ⟨h1, h3⟩
    | reservedNums l => exact ⟨h1, h3⟩
    | reservedNames l => exact ⟨h1, h3⟩
    | extensions => exact ⟨h1, h3⟩
    | ignore => exact ⟨h1, h3⟩

theorem build_noP3 {name : Str} {l : List MessageEvent} (h : ∀ e ∈ l, EventNoP3 e) : NoP3 (buildMessage name l) := by
  have key : ∀ (l : List MessageEvent) (m : Message), NoP3 m → (∀ e ∈ l, EventNoP3 e) → NoP3 (l.foldl MessageEvent.apply m) := by
    intro l
    induction l with
    | nil => intro m hm _; exact hm
    | cons e l ih => exact fun m hm h => ih _ (apply_noP3 hm (h e (by simp))) fun e' he' => h e' (by simp [he'])
  exact key l _ ⟨by simp, by simp⟩ h

theorem field_noP3 (h : Safe pan s) : Post pan s (fun f => f.frequency.optional = .p2optional) (messageField .proto2 s) := by
  refine Post.mono (fieldGeneric_post h) ?_
  rintro f ⟨h1, fr, h2⟩
  rw [h2]
  cases hf : f.typ <;> rcases fr with _ | ⟨⟨⟩⟩ <;> rfl

theorem messageEvent_noP3 {msg : Parser Message} (h : Safe pan s) (hm : Post pan s NoP3 (msg s)) :
    Post pan s EventNoP3 (messageEvent msg .proto2 s) := by
  refine Post.alt ?_
  intro p hp
  simp only [List.mem_cons, List.not_mem_nil, or_false] at hp
  rcases hp with rfl | rfl | rfl | rfl | rfl | rfl | rfl | rfl | rfl
  · exact Post.map reservedNums_post fun _ _ => trivial
  · exact Post.map reservedNames_post fun _ _ => trivial
  · exact Post.map (field_noP3 h) fun _ h => h
  · exact Post.map hm fun _ h => h
  · exact Post.map enumerator_post fun _ _ => trivial
  · exact Post.map (oneOf_post h) fun _ _ => trivial
  · exact Post.map (extensions_post h) fun _ _ => trivial
  · exact Post.value option_post trivial
  · exact Post.value br_post trivial

theorem messageN_noP3 (n : Nat) : ∀ s, Safe pan s → Post pan s NoP3 (messageN .proto2 n s) := by
  induction n with
  | zero => intro s _; trivial
  | succ n ih =>
    intro s h
    refine Post.map (A := fun p => ∀ e ∈ p.2, EventNoP3 e) (Post.terminated (B := Any) ?_ fun _ _ => optSemi_post)
      fun p hp => build_noP3 hp
    refine Post.mono (Post.pair (A := Any) (B := fun l => ∀ e ∈ l, EventNoP3 e)
      (Post.any (Post.delimited (kw_post _) (fun _ _ => Post.any word_post) fun _ _ => gap0_post)) fun r hr => ?_) fun _ h => h.2
    exact Post.delimited (tok_post _) (fun t ht => Post.many0 fun u hu =>
      have hs : Safe pan u := h.suffix (hu.trans (ht.trans hr))
      messageEvent_noP3 hs (ih u hs)) fun _ _ => tok_post _

def FileEventNoP3 : Event → Prop
  | .message m => NoP3 m
  | _ => True

theorem fileEvent_noP3 (h : Safe pan s) : Post pan s FileEventNoP3 (fileEvent .proto2 s) := by
  refine Post.alt ?_
  intro p hp
  simp only [List.mem_cons, List.not_mem_nil, or_false] at hp
  rcases hp with rfl | rfl | rfl | rfl | rfl | rfl | rfl | rfl | rfl
  · exact Post.map syntax_post fun _ _ => trivial
  · exact Post.map import_post fun _ _ => trivial
  · exact Post.map package_post fun _ _ => trivial
  · exact Post.map (messageN_noP3 _ s h : Post pan s NoP3 (message .proto2 s)) fun _ h => h
  · exact Post.map enumerator_post fun _ _ => trivial
  · exact Post.map rpcService_post fun _ _ => trivial
  · exact Post.map (extend_post h) fun _ _ => trivial
  · exact Post.value option_post trivial
  · exact Post.value br_post trivial

theorem fileApply_noP3 {d : File} {e : Event} (hd : ∀ m ∈ d.desc.messages, NoP3 m) (he : FileEventNoP3 e) :
    ∀ m ∈ (Event.apply d e).desc.messages, NoP3 m := by
  cases e with
  | message m =>
    intro g hg
    rcases List.mem_append.mp hg with hg | hg
    · exact hd g hg
    · rw [List.mem_singleton.mp hg]; exact he
  | _ => exact hd

theorem fileEvents_noP3 (h : Safe pan s) : Post pan s (fun F : File => ∀ m ∈ F.desc.messages, NoP3 m)
    (map (many0 (fileEvent .proto2)) (fun events => events.foldl Event.apply {}) s) := by
  refine Post.map (Post.many0 fun r hr => fileEvent_noP3 (h.suffix hr)) fun l hl => ?_
  have key : ∀ (l : List Event) (d : File), (∀ m ∈ d.desc.messages, NoP3 m) → (∀ e ∈ l, FileEventNoP3 e) →
      ∀ m ∈ (l.foldl Event.apply d).desc.messages, NoP3 m := by
    intro l
    induction l with
    | nil => intro d hd _; exact hd
    | cons e l ih => exact fun d hd h => ih _ (fileApply_noP3 hd (h e (by simp))) fun e' he' => h e' (by simp [he'])
  exact key l {} (by intro m hm; cases hm) hl

/-- What `scan_syntax` finds is the statement that the text begins with. -/
theorem scan_proto3 {r : Str} (h : scanSyntax s = .ok .proto3 r) : ∃ t rest, Grammar.SyntaxText .proto3 t ∧ s = t ++ rest := by
  obtain ⟨l, hl, hh⟩ := map_inv h
  unfold separatedList0 at hl
  split at hl
  · cases hl; cases hh
  · cases hl
  · rename_i a r' ha
    obtain ⟨as, _, rfl⟩ := map_inv hl
    have : a = .proto3 := hh
    subst this
    obtain ⟨t, e, ht⟩ := Grammar.syntaxP_inv ha
    exact ⟨t, r', ht, e⟩

theorem readProto_noP3 {r : Str} {F : File} (h : readProto s = .ok F r) (hs : OneSyntax s) (h2 : F.desc.syntax_ = .proto2) :
    ∀ m ∈ F.desc.messages, NoP3 m := by
  have hs := hs F r h h2
  unfold readProto at h
  split at h
  · rename_i f rem hf
    split at h
    · cases h
      unfold fileDescriptor at hf
      split at hf
      · rename_i syn _ hsyn
        cases syn with
        | proto3 =>
          obtain ⟨t, rest, ht, e⟩ := scan_proto3 hsyn
          exact absurd e (hs t rest ht)
        | proto2 =>
          have := fileEvents_noP3 (pan := True) (s := s) (Or.inl trivial)
          rw [hf] at this
          exact this.2
      · cases hf
      · cases hf
    · cases h
  · cases h
  · cases h

theorem setPackage_noP3 {m : Message} (h : NoP3 m) : ∀ p q, NoP3 (m.setPackage p q) := by
  induction h with
  | @mk m h1 h3 ih =>
    intro p q
    cases m
    refine .mk h1 ?_
    intro n hn
    simp only [Message.setPackage, setPackageAll_eq] at hn
    obtain ⟨n', hn', rfl⟩ := List.mem_map.mp hn
    exact ih n' hn' _ _

theorem descend_noP3 {js : List Nat} : ∀ {m x : Message}, NoP3 m → m.descend js = some x → NoP3 x := by
  induction js with
  | nil => intro m x h hx; cases hx; exact h
  | cons j js ih =>
    intro m x h hx
    simp only [Message.descend, Option.bind_eq_some_iff] at hx
    obtain ⟨y, hy, hx⟩ := hx
    cases h with
    | mk _ h3 => exact ih (h3 y (List.mem_of_getElem? hy)) hx

/-- The condition `OneSyntax`, decided. -/
def oneSyntaxB (text : Str) : Bool :=
  match syntaxP text with
  | .ok .proto3 _ => match readProto text with | .ok F _ => decide (F.desc.syntax_ = .proto3) | _ => true
  | _ => true

theorem oneSyntax_file {fs : Files} {p : Str} (h : (match fs p with | some text => oneSyntaxB text | none => true) = true) :
    ∀ text, fs p = some text → OneSyntax text := by
  rintro text ht F r hF h2 t rest hst rfl
  rw [ht] at h
  simp only [oneSyntaxB, Grammar.syntax_ok hst, hF, h2] at h
  cases h

end QP.Pbrs.Parse

namespace QP.Rust
open QP.Pbrs QP.Gen

/-- What compiling ensures about fields, whatever their types. -/
theorem compile_sane_any {path : FileDescriptor → FieldType → Str} {cfg : Config} {D D' : FileDescriptor} (hO : ∀ m ∈ D.messages, Parse.MessageOut m)
    (h : D.compile path cfg = .ok D') {i : MessageIndex} {m' : Message} (hm' : D'.getMessage i = some m') : MessageSane m' := by
  obtain ⟨H, v, hv⟩ := compile_via h
  obtain ⟨m, hm, hf, ho, ha⟩ := v.message hm'
  have hout := getMessage_out hO hm
  have all : ∀ f ∈ m.allFields, Parse.FieldOut f := by
    intro f hfm
    cases hout with
    | mk h1 h2 _ =>
      rcases List.mem_append.mp hfm with hfm | hfm
      · exact (h1 f hfm).1
      · obtain ⟨o, ho, hfo⟩ := List.mem_flatMap.mp hfm
        exact h2 o ho f hfo
  have hB : ∀ f' ∈ m'.allFields, f'.boxed = true → ∃ j, f'.typ = .message j := by
    intro f' hf' hb
    rw [ha] at hf'
    obtain ⟨f, hf, rfl⟩ := List.mem_map.mp hf'
    rcases (hv i m hm f hf).boxed with h1 | h1
    · rw [h1, (all f hf).boxed] at hb; cases hb
    · exact h1.1
  refine ⟨?_, fun o ho f hf => hB f (List.mem_append_right _ (List.mem_flatMap.mpr ⟨o, ho, hf⟩))⟩
  intro f' hf1
  have hb := hB f' (List.mem_append_left _ hf1)
  rw [hf] at hf1
  obtain ⟨f, hff, rfl⟩ := List.mem_map.mp hf1
  have hfm : f ∈ m.allFields := List.mem_append_left _ hff
  have c := hv i m hm f hfm
  have hr := (all f hfm).typ
  have hmp : f.frequency.isMap = f.typ.isMap := by
    cases hout with
    | mk h1 _ _ => exact (h1 f hff).2
  obtain ⟨t, ht, e⟩ := c.typ
  have hmt : t.isMap = f.typ.isMap := by
    cases hty : f.typ with
    | map k w =>
      rw [hty] at ht
      obtain ⟨_, _, rfl, _⟩ := ht
      rfl
    | _ =>
      rw [hty] at ht hr
      rcases resolvesOne_cases (resolvesTo_one rfl ht) (rawOne_of_deep hr rfl) with ⟨j, rfl, _⟩ | ⟨e, rfl, _⟩ | ⟨rfl, _⟩ <;> rfl
  have hmt' : (H i f).typ.isMap = f.typ.isMap := by
    rw [e, ← hmt]
    split
    · cases t <;> rfl
    · rfl
  refine ⟨?_, hb⟩
  rcases c.frequency with h1 | ⟨⟨j, h1⟩, _, _, h2⟩
  · rw [h1, hmt', hmp]
  · rw [h1]
    cases hq : (H i f).frequency <;> rw [hq] at h2 <;> first | rfl | cases h2

/-- The labels of the messages of a compiled proto2 file with one syntax statement. -/
theorem own_labels {n : Nat} {j : Job} {d : Disk} {D : FileDescriptor} (hr : readProtoFile d.file j.search n j.inFile = .ok D)
    (hs : ∀ text, d.file j.inFile = some text → OneSyntax text) :
    ∀ E, j.compiled n d = some E → E.syntax_ = .proto2 → ∀ idx m, Own E idx → E.getMessage idx = some m → ∀ f ∈ m.fields, f.frequency ≠ .p3optional := by
  intro E hE h2 idx x ⟨i, js, t, he, ht, hi⟩ hx f' hf'
  subst he
  obtain ⟨D', hc, rfl⟩ := compiled_compile hr hE
  have hmsgs : (D'.printed j.cfg).messages = D'.messages := by unfold FileDescriptor.printed; split <;> rfl
  have hsyn : (D'.printed j.cfg).syntax_ = D'.syntax_ := by unfold FileDescriptor.printed; split <;> rfl
  rw [hmsgs] at ht
  rw [hsyn] at h2
  have hx : D'.getMessage (i :: js) = some x := by rw [← hx]; unfold FileDescriptor.getMessage; rw [hmsgs]
  obtain ⟨H, v, hv⟩ := compile_via hc
  obtain ⟨sh, _, hsh⟩ := compile_shells hc
  obtain ⟨D0, imps, ms, es, hR, g1, g2, _, _, g5⟩ := read_own hr
  obtain ⟨text, F, r, hF0, hF, _, rfl⟩ := reads_parsed hR
  have h2' : F.desc.syntax_ = .proto2 := by
    rw [← h2]
    have a := congrArg FileDescriptor.syntax_ hsh
    have b := congrArg FileDescriptor.syntax_ g5
    exact (a.trans b).symm
  have hno := Parse.readProto_noP3 hF (hs text hF0) h2'
  obtain ⟨m, hm, hf, _, _⟩ := v.message hx
  obtain ⟨y, hy, hd⟩ : ∃ y, D.messages[i]? = some y ∧ y.descend js = some m := by
    have hm : D.getMessage (i :: js) = some m := hm
    simp only [FileDescriptor.getMessage, Option.bind_eq_some_iff] at hm
    exact hm
  have hyi : y.imported = false := by
    have := sh [i]
    simp only [FileDescriptor.getMessage, ht, hy, Option.bind_some, Message.descend, Option.map_some, Option.some.injEq] at this
    have := congrArg Message.imported this
    cases t; cases y
    exact this.symm.trans hi
  have hyn : Parse.NoP3 y := by
    have hmem := List.mem_of_getElem? hy
    rw [g1] at hmem
    rcases List.mem_append.mp hmem with hmem | hmem
    · simp only [FileDescriptor.setPackages, setPackageAll_eq] at hmem
      obtain ⟨y0, hy0, rfl⟩ := List.mem_map.mp hmem
      exact Parse.setPackage_noP3 (hno y0 hy0) _ _
    · rw [g2 y hmem] at hyi; cases hyi
  rw [hf] at hf'
  obtain ⟨f, hff, rfl⟩ := List.mem_map.mp hf'
  have hfn : f.frequency.optional = .p2optional := by
    cases Parse.descend_noP3 hyn hd with
    | mk h1 _ => exact h1 f hff
  rcases (hv (i :: js) m hm f (List.mem_append_left _ hff)).label with hl | hl
  · rw [hl]
    intro hc
    rw [hc] at hfn
    cases hfn
  · rw [hl, hfn]
    decide

end QP.Rust
