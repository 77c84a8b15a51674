import Verif.Proofs.Heads
import Verif.Model.Gen
set_option linter.unusedVariables false
/-!
# Options: what compiling does with them
-/

namespace QP.Pbrs

/-- `--owned` -/
def FileDescriptor.own (b : Bool) (D : FileDescriptor) : FileDescriptor := { D with owned := b }

/-- The same for results. -/
def ownR {ε : Type} (b : Bool) : Except ε FileDescriptor → Except ε FileDescriptor
  | .ok D => .ok (D.own b)
  | .error e => .error e

theorem getMessage_own (b : Bool) (D : FileDescriptor) (i : MessageIndex) : (D.own b).getMessage i = D.getMessage i := by cases i <;> rfl

theorem own_own (a b : Bool) (D : FileDescriptor) : (D.own a).own b = D.own b := rfl

theorem resolve_own (b : Bool) (D : FileDescriptor) : (D.own b).resolveTypes = ownR b D.resolveTypes := by
  unfold FileDescriptor.resolveTypes
  have h : Message.resolveAll (D.own b).fullNames (D.own b).setIndexes.messages = Message.resolveAll D.fullNames D.setIndexes.messages := rfl
  rw [h]
  cases Message.resolveAll D.fullNames D.setIndexes.messages <;> rfl

theorem flatten_own (b : Bool) (D : FileDescriptor) : ∀ (k : Nat) (w r : List MessageIndex), flattenLoop (D.own b) k w r = flattenLoop D k w r := by
  intro k
  induction k with
  | zero => intro w r; cases w <;> rfl
  | succ k ih =>
    intro w r
    cases w with
    | nil => rfl
    | cons i is =>
      simp only [flattenLoop, getMessage_own, ih]

theorem adj_own (b : Bool) (D : FileDescriptor) : (D.own b).adj = D.adj := by
  funext vs u
  simp only [FileDescriptor.adj]
  cases vs[u]? with
  | none => rfl
  | some v => simp only [Option.bind_some, getMessage_own]

theorem sccs_own (b : Bool) (D : FileDescriptor) : (D.own b).sccs = D.sccs := by
  unfold FileDescriptor.sccs
  have : (D.own b).flattenMessages = D.flattenMessages := flatten_own b D _ _ _
  rw [this, adj_own]

theorem modify_own (b : Bool) (D : FileDescriptor) (i : MessageIndex) (g : Message → Message) :
    (D.own b).modifyMessage i g = (D.modifyMessage i g).own b := by cases i <;> rfl

theorem mapCycle_own (b : Bool) (h : Field → Field) (c : List MessageIndex) (D : FileDescriptor) :
    mapCycle h c (D.own b) = (mapCycle h c D).own b := by
  unfold mapCycle
  induction c generalizing D with
  | nil => rfl
  | cons i is ih => simp only [List.foldl_cons, modify_own, ih]

theorem isCycle_own (b : Bool) (c : List MessageIndex) (D : FileDescriptor) : isCycle c (D.own b) = isCycle c D := by
  unfold isCycle
  simp only [getMessage_own]

theorem breakCycle_own (b e : Bool) (c : List MessageIndex) (D : FileDescriptor) : breakCycle e c (D.own b) = ownR b (breakCycle e c D) := by
  unfold breakCycle
  simp only [mapCycle_own, isCycle_own, getMessage_own]
  split
  · split <;> rfl
  · rfl

theorem forEach_own {α : Type} (b : Bool) {body : α → FileDescriptor → Except (List Str) FileDescriptor}
    (h : ∀ x D, body x (D.own b) = ownR b (body x D)) (xs : List α) (D : FileDescriptor) : forEach body xs (D.own b) = ownR b (forEach body xs D) := by
  induction xs generalizing D with
  | nil => rfl
  | cons x xs ih =>
    simp only [forEach, h]
    cases body x D with
    | error e => rfl
    | ok D => exact ih D

theorem breakVertex_own (b e : Bool) (scc : List MessageIndex) (i : Nat) (D : FileDescriptor) :
    breakVertex e scc i (D.own b) = ownR b (breakVertex e scc i D) := by
  unfold breakVertex
  have : cyclesAt scc i (D.own b) = cyclesAt scc i D := by
    unfold cyclesAt
    cases scc[i]? with
    | none => rfl
    | some v => simp only [Option.bind_some, getMessage_own]
  rw [this]
  exact forEach_own b (fun k D => breakCycle_own b e _ D) _ D

theorem breakCycles_own (b e : Bool) (D : FileDescriptor) : (D.own b).breakCycles e = (D.breakCycles e).map (ownR b) := by
  unfold FileDescriptor.breakCycles
  rw [sccs_own, Option.map_map]
  congr 1
  funext sccs
  exact forEach_own b (fun scc D => forEach_own b (fun i D => breakVertex_own b e scc i D) _ D) sccs D

/-- If `--error-cycle` finds nothing to report, it changes nothing. -/
theorem forEach_quiet {α : Type} {f g : α → FileDescriptor → Except (List Str) FileDescriptor} (h : ∀ x D D', f x D = .ok D' → g x D = .ok D')
    (xs : List α) {D D' : FileDescriptor} (hf : forEach f xs D = .ok D') : forEach g xs D = .ok D' := by
  induction xs generalizing D with
  | nil => exact hf
  | cons x xs ih =>
    simp only [forEach] at hf ⊢
    cases hx : f x D with
    | error e => rw [hx] at hf; cases hf
    | ok D1 =>
      rw [hx] at hf
      rw [h x D D1 hx]
      exact ih hf

theorem breakCycles_error {D D' : FileDescriptor} (h : D.breakCycles true = some (.ok D')) : D.breakCycles false = some (.ok D') := by
  unfold FileDescriptor.breakCycles at h ⊢
  obtain ⟨s, hs, h⟩ := Option.map_eq_some_iff.mp h
  rw [hs]
  refine congrArg some (forEach_quiet (fun scc D D' h => forEach_quiet (fun i D D' h => ?_) _ h) s h)
  unfold breakVertex at h ⊢
  refine forEach_quiet (fun k D D' h => ?_) _ h
  unfold breakCycle at h ⊢
  simp only [if_true] at h
  simp only [Bool.false_eq_true, if_false]
  split at h
  · cases h
  · rename_i hc
    rw [if_neg hc]
    exact h

theorem breakCycles_any {e₁ e₂ : Bool} {D D₁ D₂ : FileDescriptor} (h₁ : D.breakCycles e₁ = some (.ok D₁)) (h₂ : D.breakCycles e₂ = some (.ok D₂)) : D₁ = D₂ := by
  have h : ∀ {e D'}, D.breakCycles e = some (.ok D') → D.breakCycles false = some (.ok D') := by
    intro e D' h
    cases e
    · exact h
    · exact breakCycles_error h
  have := (h h₁).symm.trans (h h₂)
  cases this
  rfl

/-- Two compilations of a file with different options pass through the same descriptor. -/
theorem compile_middle {path₁ path₂ : FileDescriptor → FieldType → Str} {cfg₁ cfg₂ : Config} {b₁ b₂ : Bool} {D E₁ E₂ : FileDescriptor}
    (h₁ : (D.own b₁).compile path₁ cfg₁ = .ok E₁) (h₂ : (D.own b₂).compile path₂ cfg₂ = .ok E₂) :
    ∃ M C₁ C₂ F₁ F₂ : FileDescriptor,
      (C₁ = (if cfg₁.dontUseCow then ((M.own b₁).convertFieldTypes .stringCow .string_).convertFieldTypes .bytesCow .bytes_ else M.own b₁) ∧
        C₁.setDefaults (path₁ C₁) = some F₁ ∧ E₁ = F₁.sanitizeNames) ∧
      (C₂ = (if cfg₂.dontUseCow then ((M.own b₂).convertFieldTypes .stringCow .string_).convertFieldTypes .bytesCow .bytes_ else M.own b₂) ∧
        C₂.setDefaults (path₂ C₂) = some F₂ ∧ E₂ = F₂.sanitizeNames) ∧ AllSized M ∧ SameShells D M := by
  obtain ⟨R₁, M₁, C₁, F₁, S₁⟩ := compile_stages h₁
  obtain ⟨R₂, M₂, C₂, F₂, S₂⟩ := compile_stages h₂
  have r₁ := S₁.resolve
  have r₂ := S₂.resolve
  rw [resolve_own] at r₁ r₂
  cases hr : D.resolveTypes with
  | error e => rw [hr] at r₁; cases r₁
  | ok R =>
    rw [hr] at r₁ r₂
    cases r₁
    cases r₂
    have c₁ := S₁.cycles
    have c₂ := S₂.cycles
    rw [breakCycles_own] at c₁ c₂
    obtain ⟨x₁, hx₁, c₁⟩ := Option.map_eq_some_iff.mp c₁
    obtain ⟨x₂, hx₂, c₂⟩ := Option.map_eq_some_iff.mp c₂
    cases x₁ with
    | error e => cases c₁
    | ok N₁ =>
      cases x₂ with
      | error e => cases c₂
      | ok N₂ =>
        cases c₁
        cases c₂
        cases breakCycles_any hx₁ hx₂
        obtain ⟨hsz, H, hR, _⟩ := breakCycles_ok (C52_positions hr) hx₁
        exact ⟨N₁, C₁, C₂, F₁, F₂, ⟨S₁.convert, S₁.defaults, S₁.names⟩, ⟨S₂.convert, S₂.defaults, S₂.names⟩, hsz,
          (shells_resolve hr).trans (shells_rewritten hR)⟩

/-! ## The fields -/

/-- Two fields that differ at most in their name, the text of their default, and in whether strings are borrowed. -/
def SameField (f g : Field) : Prop :=
  g = { f with name := g.name, typ := g.typ, default := g.default } ∧ f.typ.owned = g.typ.owned ∧ f.default.isSome = g.default.isSome

/-- What compiling does after cycles are broken. -/
def finish (path : FieldType → Str) (cow p3 top : Bool) (f : Field) : Field :=
  let f := { f with typ := if cow then f.typ.owned else f.typ }
  let f := if p3 = true ∧ top = true then f.repeatedAsPacked else f
  let f := defaulted path f
  let f := if top = true then f.unsetPackedNonPrimitive else f
  { f with name := sanitizeKeyword f.name }

theorem owned_owned (t : FieldType) : t.owned.owned = t.owned := by
  cases t <;> try rfl
  rename_i k v
  cases k <;> cases v <;> rfl

theorem owned_primitive (t : FieldType) : t.owned.isPrimitive = t.isPrimitive := by cases t <;> rfl

theorem finish_typ (path : FieldType → Str) (cow p3 top : Bool) (f : Field) :
    (finish path cow p3 top f).typ = if cow then f.typ.owned else f.typ := by
  obtain ⟨name, fr, typ, num, d, pk, bx, dp⟩ := f
  unfold finish
  simp only [defaulted_fields, Field.repeatedAsPacked, Field.unsetPackedNonPrimitive]
  split <;> split <;> split <;> (try split) <;> (try rfl) <;> (split <;> rfl)

/-- The text of the default. -/
theorem finish_default (path : FieldType → Str) (cow p3 top : Bool) (f : Field) :
    (finish path cow p3 top f).default = f.default.map (rewritten path (if cow then f.typ.owned else f.typ)) := by
  obtain ⟨name, fr, typ, num, d, pk, bx, dp⟩ := f
  unfold finish
  simp only [defaulted_fields, Field.repeatedAsPacked, Field.unsetPackedNonPrimitive]
  split <;> split <;> split <;> (try split) <;> (try rfl) <;> (split <;> rfl)

theorem finish_same (path₁ path₂ : FieldType → Str) (cow₁ cow₂ p3 top : Bool) (f : Field) :
    SameField (finish path₁ cow₁ p3 top f) (finish path₂ cow₂ p3 top f) := by
  refine ⟨?_, ?_, ?_⟩
  · obtain ⟨name, fr, typ, num, d, pk, bx, dp⟩ := f
    unfold finish
    simp only [defaulted_fields, Field.repeatedAsPacked, Field.unsetPackedNonPrimitive]
    cases cow₁ <;> cases cow₂ <;> cases p3 <;> cases top <;> cases h2 : (pk.isNone && fr.isRepeated) <;> cases hpt : typ.isPrimitive <;> cases pk <;>
      simp [owned_primitive, hpt] <;> (try simp_all)
  · rw [finish_typ, finish_typ]
    cases cow₁ <;> cases cow₂ <;> simp [owned_owned]
  · rw [finish_default, finish_default]
    simp

theorem finish_name (path₁ path₂ : FieldType → Str) (cow₁ cow₂ p3 top : Bool) (f : Field) :
    (finish path₂ cow₂ p3 top f).name = (finish path₁ cow₁ p3 top f).name := by
  obtain ⟨name, fr, typ, num, d, pk, bx, dp⟩ := f
  unfold finish
  simp only [defaulted_fields, Field.repeatedAsPacked, Field.unsetPackedNonPrimitive]
  cases cow₁ <;> cases cow₂ <;> cases p3 <;> cases top <;> cases h2 : (pk.isNone && fr.isRepeated) <;> cases hpt : typ.isPrimitive <;> cases pk <;>
    simp [owned_primitive, hpt] <;> (try simp_all)

theorem finish_via {path : FileDescriptor → FieldType → Str} {cfg : Config} {b : Bool} {M C F E : FileDescriptor}
    (hC : C = (if cfg.dontUseCow then ((M.own b).convertFieldTypes .stringCow .string_).convertFieldTypes .bytesCow .bytes_ else M.own b))
    (hF : C.setDefaults (path C) = some F) (hE : E = F.sanitizeNames) :
    Via M E (fun i f => finish (path C) cfg.dontUseCow (M.syntax_ == .proto3) (i.length == 1) f) := by
  have v3 := convert_stage cfg (M.own b)
  rw [← hC] at v3
  have v4 := setDefaults_via hF
  have v5 := sanitizeNames_via F
  rw [← hE] at v5
  have v0 : Via M (M.own b) (fun _ f => f) := by
    intro i
    unfold FileDescriptor.fieldsAt
    rw [getMessage_own]
    cases M.getMessage i <;> simp
  refine Via.congr (((v0.trans v3).trans v4).trans v5) fun i f => ?_
  have hs : C.syntax_ = M.syntax_ := by rw [hC]; split <;> rfl
  simp only [Function.comp, finish, hs, beq_iff_eq]

end QP.Pbrs
