import Verif.Proofs.Cycles
import Verif.Model.Gen
/-!
# C48-C50: components, finite size, `error_cycle`
-/

set_option linter.unusedVariables false

namespace QP.Pbrs
open Spec

/-! ## Examples -/

namespace CycleExample

def field (name : String) (q : Frequency) (n : Int) (j : MessageIndex) : Field :=
  { name := name.toList, frequency := q, typ := .message j, number := n }

/-- `message A { optional B b = 1; optional C c = 2; message In { required A a = 1; } required In i = 3; }`,
`message B { required A a = 1; repeated B bs = 2; }`, `message C { optional int32 x = 1; }`. -/
def desc : FileDescriptor :=
  { messages := [
      { name := "A".toList, index := [0],
        fields := [field "b" .p2optional 1 [1], field "c" .p2optional 2 [2], field "i" .p2required 3 [0, 0]],
        messages := [{ name := "In".toList, fields := [field "a" .p2required 1 [0]], index := [0, 0] }] },
      { name := "B".toList, fields := [field "a" .p2required 1 [0], field "bs" .p2repeated 2 [1]], index := [1] },
      { name := "C".toList, fields := [{ name := "x".toList, frequency := .p2optional, typ := .int32, number := 1 }],
        index := [2] }] }

theorem get_cases (idx : MessageIndex) (m : Message) (h : desc.getMessage idx = some m) :
    idx = [0] ∨ idx = [0, 0] ∨ idx = [1] ∨ idx = [2] := by
  match idx with
  | [] => cases h
  | [0] => simp
  | [0, 0] => simp
  | 0 :: 0 :: _ :: _ => simp [FileDescriptor.getMessage, desc, Message.descend] at h
  | 0 :: (n + 1) :: _ => simp [FileDescriptor.getMessage, desc, Message.descend] at h
  | [1] => simp
  | 1 :: _ :: _ => simp [FileDescriptor.getMessage, desc, Message.descend] at h
  | [2] => simp
  | 2 :: _ :: _ => simp [FileDescriptor.getMessage, desc, Message.descend] at h
  | (n + 3) :: _ => simp [FileDescriptor.getMessage, desc] at h

theorem indexOk : IndexOk desc := by
  intro idx m h
  rcases get_cases idx m h with rfl | rfl | rfl | rfl <;> (cases h; rfl)

/-- The schema has a by-value cycle: `A` contains `In`, which contains `A`. -/
theorem contains_cycle : Contains desc [0] [0, 0] ∧ Contains desc [0, 0] [0] :=
  ⟨⟨_, _, rfl, List.Mem.tail _ (List.Mem.tail _ (List.Mem.head _)), rfl, rfl, rfl, rfl⟩,
    ⟨_, _, rfl, List.Mem.head _, rfl, rfl, rfl, rfl⟩⟩

theorem not_sized : ¬ AllSized desc := by
  intro h
  have irr : ∀ x : MessageIndex, x ∈ [[0], [0, 0]] → False := by
    intro x
    induction x using h.induction with
    | _ x ih =>
      intro hx
      simp only [List.mem_cons, List.not_mem_nil, or_false] at hx
      rcases hx with rfl | rfl
      · exact ih _ contains_cycle.1 (by simp)
      · exact ih _ contains_cycle.2 (by simp)
  exact irr [0] (by simp)

end CycleExample

/-! ## C48 -/

/-- C48. `sccs()` terminates and returns the strongly connected components: every message is in exactly one of them, and
two messages are in the same one exactly when each reaches the other through by-value containment. -/
theorem C48_strongly_connected (D : FileDescriptor) (hI : IndexOk D) :
    ∃ cs, D.sccs = some cs ∧ cs.flatten.Nodup ∧ (∀ c ∈ cs, c ≠ []) ∧
      (∀ x, x ∈ cs.flatten ↔ (D.getMessage x).isSome) ∧
      ∀ x y, (D.getMessage x).isSome → (D.getMessage y).isSome →
        ((∃ c ∈ cs, x ∈ c ∧ y ∈ c) ↔ Path (Contains D) x y ∧ Path (Contains D) y x) := by
  obtain ⟨cs, h, hc⟩ := sccs_ok hI
  refine ⟨cs, h, hc.partition.1, hc.nonempty, hc.partition.2, fun x y hx hy => ⟨?_, fun hp => mutual_same hc hx hp.1 hp.2⟩⟩
  rintro ⟨c, hcm, hxc, hyc⟩
  exact ⟨hc.strong c hcm x hxc y hyc, hc.strong c hcm y hyc x hxc⟩

/-- C48. The components come out in dependency order: containment never leads to a later component. -/
theorem C48_order (D : FileDescriptor) (hI : IndexOk D) :
    ∃ cs, D.sccs = some cs ∧ ∀ l c l', cs = l ++ c :: l' → ∀ x ∈ c, ∀ y, Contains D x y → y ∈ c ∨ y ∈ l.flatten := by
  obtain ⟨cs, h, hc⟩ := sccs_ok hI
  refine ⟨cs, h, fun l c l' he x hx y hy => ?_⟩
  rcases hc.closed l c l' he x hx y hy with h1 | ⟨c', h1, h2⟩
  · exact Or.inl h1
  · exact Or.inr (List.mem_flatten.mpr ⟨c', h1, h2⟩)

/-- The example schema meets the hypotheses; it has a component with three messages. -/
example : IndexOk CycleExample.desc := CycleExample.indexOk

/-! ## C49 -/

/-- C49. With `error_cycle` off, `break_cycles` succeeds on every schema, and afterwards no chain of by-value containments is
infinite. It only changes fields that refer to a message of a singular kind, by boxing them and making them optional, and
only those that link two messages that contain each other. -/
theorem C49_finite_size (D : FileDescriptor) (hI : IndexOk D) :
    ∃ D' H, D.breakCycles false = some (.ok D') ∧ AllSized D' ∧ Rewritten D D' H ∧
      ∀ i f, BoxedOptional f (H i f) ∧ (H i f = f ∨
        ∃ j, f.typ = .message j ∧ Path (Contains D) i j ∧ Path (Contains D) j i) := by
  obtain ⟨cs, h, hc⟩ := sccs_ok hI
  obtain ⟨D', hD'⟩ := forEach_ok (body := fun scc => forEach (breakVertex false scc) (List.range scc.length))
    (fun scc => forEach_ok (fun i D => forEach_ok (fun k D => breakCycle_ok _ D) _ D) _) cs D
  obtain ⟨⟨H, h1, h2⟩, _, h3⟩ := breakCycles_step hc hD'
  refine ⟨D', H, by simp only [FileDescriptor.breakCycles, h, Option.map_some, hD'], h3, h1, fun i f => ⟨(h2 i f).1, ?_⟩⟩
  rcases (h2 i f).2 with h | ⟨j, hj, c, hcm, hi, hjc⟩
  · exact Or.inl h
  · exact Or.inr ⟨j, hj, hc.strong c hcm i hi j hjc, hc.strong c hcm j hjc i hi⟩

/-- The example meets the hypotheses and is not finite to begin with. -/
example : IndexOk CycleExample.desc ∧ ¬ AllSized CycleExample.desc := ⟨CycleExample.indexOk, CycleExample.not_sized⟩

/-! ## C50 -/

theorem AllSized.no_cycle {D : FileDescriptor} (h : AllSized D) {x y : MessageIndex} (h1 : Contains D x y)
    (h2 : Path (Contains D) y x) : False := by
  have key : ∀ x : MessageIndex, ∀ y z, Contains D x y → Path (Contains D) y z → Path (Contains D) z x → False := by
    intro x
    induction x using h.induction with
    | _ x ih =>
      intro y z hxy hyz hzx
      have hyx := hyz.trans hzx
      cases hyx with
      | refl => exact ih _ hxy _ _ hxy (Path.refl _) (Path.refl _)
      | step p e =>
        have hsucc : ∀ a b, Path (Contains D) a b → ∀ c, Contains D b c → ∃ d, Contains D a d ∧ Path (Contains D) d c := by
          intro a b hab
          induction hab with
          | refl => exact fun c hc => ⟨c, hc, Path.refl _⟩
          | step p' e' ih' =>
            intro c hc
            obtain ⟨d, h1, h2⟩ := ih' _ e'
            exact ⟨d, h1, h2.step hc⟩
        obtain ⟨d, h1, h2⟩ := hsucc _ _ p _ e
        exact ih _ hxy d x h1 h2 (Path.edge hxy)
  exact key x y x h1 h2 (Path.refl x)

/-- C50, the part that holds: with `error_cycle` on, when `break_cycles` succeeds the schema is sound: no chain of by-value
containments is infinite, and it got there by boxing optional fields only. -/
theorem C50_ok_sound_partial (D D' : FileDescriptor) (hI : IndexOk D) (h : D.breakCycles true = some (.ok D')) :
    AllSized D' ∧ ∃ H, Rewritten D D' H ∧ ∀ i f, OnlyBoxed f (H i f) := by
  obtain ⟨cs, hs, hc⟩ := sccs_ok hI
  simp only [FileDescriptor.breakCycles, hs, Option.map_some, Option.some.injEq] at h
  obtain ⟨_, h2, h3⟩ := breakCycles_step hc h
  obtain ⟨H, h4, h5⟩ := h2 rfl
  exact ⟨h3, H, h4, fun i f => (h5 i f).1⟩

/-- C50, the part that holds: with `error_cycle` on, a schema with a cycle of required message fields is rejected. -/
theorem C50_rejects_partial (D : FileDescriptor) (hI : IndexOk D) (x y : MessageIndex) (h1 : Requires D x y)
    (h2 : Path (Requires D) y x) : ∃ E, D.breakCycles true = some (.error E) := by
  obtain ⟨cs, hs, hc⟩ := sccs_ok hI
  simp only [FileDescriptor.breakCycles, hs, Option.map_some, Option.some.injEq]
  cases hr : forEach (fun scc => forEach (breakVertex true scc) (List.range scc.length)) cs D with
  | error E => exact ⟨E, rfl⟩
  | ok D' =>
    exfalso
    obtain ⟨_, ha, h3⟩ := breakCycles_step hc hr
    have fwd : ∀ a b, Requires D a b → Contains D' a b := by
      rintro a b ⟨m, f, hm, hf, hb, ho, hrep, ht, hj⟩
      obtain ⟨g, hg, hR⟩ := (ha rfl).field_fwd (mem_fieldsOf.mpr ⟨m, hm, hf⟩)
      have := hR.1.firm hb ho
      subst this
      exact contains_fields.mpr ⟨⟨_, hg, hb, hrep, ht⟩, by rw [(ha rfl).isSome]; exact hj⟩
    refine h3.no_cycle (fwd _ _ h1) ?_
    have : ∀ a b, Path (Requires D) a b → Path (Contains D') a b := by
      intro a b h
      induction h with
      | refl => exact Path.refl _
      | step _ e ih => exact ih.step (fwd _ _ e)
    exact this _ _ h2

/-- C50, the part that holds: with `error_cycle` on, a rejected schema has a message field that is not optional (required,
or repeated) between two messages that contain each other. -/
theorem C50_error_reason_partial (D : FileDescriptor) (hI : IndexOk D) (E) (h : D.breakCycles true = some (.error E)) :
    ∃ i j, MentionsFirmly D i j ∧ Path (Contains D) i j ∧ Path (Contains D) j i := by
  obtain ⟨cs, hs, hc⟩ := sccs_ok hI
  simp only [FileDescriptor.breakCycles, hs, Option.map_some, Option.some.injEq] at h
  obtain ⟨c, hcm, l, s, r, v, w, he, _, _, _, i, hi, j, hj, hij⟩ := (breakCycles_error_iff hc).mp ⟨E, h⟩
  have hi' : i ∈ c := by rw [he]; simp [hi]
  have hj' : j ∈ c := by rw [he]; simp [hj]
  exact ⟨i, j, hij, hc.strong c hcm i hi' j hj', hc.strong c hcm j hj' i hi'⟩

/-- C50, exactly when `break_cycles` fails with `error_cycle` on: some component, in the order `sccs()` lists it, has a
slice whose first message mentions its last one (through any message field) and in which some message has a message field
that is neither optional nor boxed and refers into the slice. -/
theorem C50_error_iff_partial (D : FileDescriptor) (hI : IndexOk D) :
    ∃ cs, D.sccs = some cs ∧ ((∃ E, D.breakCycles true = some (.error E)) ↔
      ∃ c ∈ cs, ∃ l s r v w, c = l ++ s ++ r ∧ s.head? = some v ∧ s.getLast? = some w ∧ Mentions D v w ∧
        ∃ i ∈ s, ∃ j ∈ s, MentionsFirmly D i j) := by
  obtain ⟨cs, hs, hc⟩ := sccs_ok hI
  refine ⟨cs, hs, ?_⟩
  rw [show (∃ c ∈ cs, ∃ l s r v w, c = l ++ s ++ r ∧ s.head? = some v ∧ s.getLast? = some w ∧ Mentions D v w ∧
        ∃ i ∈ s, ∃ j ∈ s, MentionsFirmly D i j) ↔ ∃ c ∈ cs, BadSlice D c from Iff.rfl, ← breakCycles_error_iff hc]
  simp only [FileDescriptor.breakCycles, hs, Option.map_some, Option.some.injEq]

/-- `message Tree { repeated Tree children = 1; }` -/
def CycleExample.tree : FileDescriptor :=
  { messages := [{ name := "Tree".toList, fields := [CycleExample.field "children" .p2repeated 1 [0]], index := [0] }] }

/-- `message A { optional B b = 1; }`, `message B { required A a = 1; }` -/
def CycleExample.pair : FileDescriptor :=
  { messages := [
      { name := "A".toList, fields := [CycleExample.field "b" .p2optional 1 [1]], index := [0] },
      { name := "B".toList, fields := [CycleExample.field "a" .p2required 1 [0]], index := [1] }] }

theorem CycleExample.tree_cases (idx : MessageIndex) (m : Message) (h : CycleExample.tree.getMessage idx = some m) :
    idx = [0] := by
  match idx with
  | [] => cases h
  | [0] => rfl
  | 0 :: _ :: _ => simp [FileDescriptor.getMessage, tree, Message.descend] at h
  | (n + 1) :: _ => simp [FileDescriptor.getMessage, tree] at h

theorem CycleExample.pair_cases (idx : MessageIndex) (m : Message) (h : CycleExample.pair.getMessage idx = some m) :
    idx = [0] ∨ idx = [1] := by
  match idx with
  | [] => cases h
  | [0] => simp
  | 0 :: _ :: _ => simp [FileDescriptor.getMessage, pair, Message.descend] at h
  | [1] => simp
  | 1 :: _ :: _ => simp [FileDescriptor.getMessage, pair, Message.descend] at h
  | (n + 2) :: _ => simp [FileDescriptor.getMessage, pair] at h

/-- C50 is false: a schema all of whose structs are finite as they stand, without any required message field, is rejected
by `error_cycle` because of a repeated self-reference. -/
theorem C50_refuted_repeated : IndexOk CycleExample.tree ∧ AllSized CycleExample.tree ∧
    (∀ i j, ¬ Requires CycleExample.tree i j) ∧ CycleExample.tree.breakCycles true = some (.error ["Tree".toList]) := by
  refine ⟨?_, ?_, ?_, rfl⟩
  · intro idx m h
    cases CycleExample.tree_cases idx m h
    cases h; rfl
  · refine ⟨fun i => ⟨i, fun j hj => ?_⟩⟩
    obtain ⟨m, f, hm, hf, _, hr, _⟩ := hj
    cases CycleExample.tree_cases _ m hm
    cases hm
    simp [Message.allFields, CycleExample.field] at hf
    subst hf
    cases hr
  · rintro i j ⟨m, f, hm, hf, _, _, hr, _⟩
    cases CycleExample.tree_cases _ m hm
    cases hm
    simp [Message.allFields, CycleExample.field] at hf
    subst hf
    cases hr

/-- C50 is false: a schema in which boxing the optional field is enough, there being no cycle of required fields, is
rejected too. -/
theorem C50_refuted_optional : IndexOk CycleExample.pair ∧
    (∀ x y, Requires CycleExample.pair x y → ¬ Path (Requires CycleExample.pair) y x) ∧
    CycleExample.pair.breakCycles true = some (.error ["A".toList, "B".toList]) := by
  refine ⟨?_, ?_, rfl⟩
  · intro idx m h
    rcases CycleExample.pair_cases idx m h with rfl | rfl <;> (cases h; rfl)
  · have only : ∀ i j, Requires CycleExample.pair i j → i = [1] ∧ j = [0] := by
      rintro i j ⟨m, f, hm, hf, _, ho, _, ht, _⟩
      rcases CycleExample.pair_cases _ m hm with rfl | rfl
      · cases hm
        simp [Message.allFields, CycleExample.field] at hf
        subst hf
        cases ho
      · cases hm
        simp [Message.allFields, CycleExample.field] at hf
        subst hf
        cases ht
        exact ⟨rfl, rfl⟩
    intro x y h1 h2
    obtain ⟨rfl, rfl⟩ := only _ _ h1
    cases h2 with
    | step p e =>
      have := (only _ _ e).2
      cases this

/-! ## Defaults exist -/

end QP.Pbrs

namespace QP.Gen
open QP.Pbrs

/-- In a schema without infinite by-value containment every message has its generated `Default`: the recursion of the
`Default` impls ends. (`IsDefault` is a hypothesis of the theorems about generated code; `C49_finite_size` provides
`AllSized`.) -/
theorem C49_defaults_exist (C : Ctx) (h : AllSized C.D) : ∃ dflt, IsDefault { C with dflt := dflt } := by
  classical
  replace h : WellFounded (fun j i => Contains C.D i j) := h
  let step : ∀ i : MessageIndex, (∀ j, Contains C.D i j → RVal) → RVal := fun i rec =>
    match C.D.getMessage i with
    | Option.some m => .struct ((members C.cfg m).map (slotDefault
        { C with dflt := fun j => if hj : Contains C.D i j then rec j hj else .none } (m.mustGenerateImplDefault C.D C.cfg)))
    | Option.none => .none
  refine ⟨h.fix step, fun idx m hm => ?_⟩
  simp only
  rw [WellFounded.fix_eq]
  simp only at hm
  show step idx _ = _
  simp only [step, hm]
  congr 1
  refine List.map_congr_left fun mem hmem => ?_
  cases mem with
  | oneof fs => rfl
  | field f =>
    have hf : f ∈ m.allFields := by
      simp only [members, List.mem_append, List.mem_map, List.mem_filter] at hmem
      rcases hmem with ⟨f', ⟨hf', _⟩, he⟩ | ⟨o, _, he⟩
      · cases he
        exact List.mem_append_left _ hf'
      · cases he
    simp only [slotDefault]
    split
    · rfl
    · rename_i hb
      simp only [Bool.or_eq_true, not_or, Bool.not_eq_true] at hb
      have key : f.frequency.generated = .singular → ∀ j, f.typ = .message j →
          (if hj : Contains C.D idx j then h.fix step j else .none) = h.fix step j := by
        intro hg j ht
        split
        · rfl
        · rename_i hc
          cases hj : C.D.getMessage j with
          | none =>
            rw [WellFounded.fix_eq]
            show RVal.none = step j _
            simp only [step, hj]
          | some m' =>
            exfalso
            refine hc ⟨m, f, hm, hf, hb.1, ?_, ht, by rw [hj]; rfl⟩
            cases hq : f.frequency <;> rw [hq] at hg <;> first | rfl | cases hg
      cases hg : f.frequency.generated with
      | arrayLike => rfl
      | map => rfl
      | singular =>
        have htyp : ∀ t, (t = f.typ) → typDefault { C with dflt := fun j => if hj : Contains C.D idx j then h.fix step j else .none } t
            = typDefault { C with dflt := h.fix step } t := by
          intro t ht
          cases t <;> try rfl
          exact key hg _ ht.symm
        simp only
        split
        · unfold fieldDefault
          cases f.default with
          | some s => rfl
          | none => exact htyp _ rfl
        · exact htyp _ rfl

end QP.Gen
