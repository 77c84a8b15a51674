import Verif.Proofs.Ready
set_option linter.unusedVariables false
/-!
# What compiling leaves of names, modules and enums

Compiling changes the fields of messages (`Via`, `Proofs/Compile`), gives messages and enums their positions, and renames keywords:
nothing else.
-/

namespace QP.Pbrs
open Spec

/-- An enum, apart from its position. -/
def Enumerator.core (e : Enumerator) : Enumerator := { e with index := ⟨[], 0⟩ }

/-- A oneof, apart from its fields. -/
def OneOf.shell (o : OneOf) : OneOf := { o with fields := [] }

/-- A message, apart from its fields, position and nested messages. -/
def Message.shell (m : Message) : Message :=
  { m with fields := [], oneofs := m.oneofs.map OneOf.shell, messages := [], index := [], enums := m.enums.map Enumerator.core }

/-- A file, apart from its messages and enums. -/
def FileDescriptor.shell (D : FileDescriptor) : FileDescriptor := { D with messages := [], enums := [] }

/-- The two descriptors have the same messages (apart from fields and positions), enums (apart from positions) and header. -/
def SameShells (D D' : FileDescriptor) : Prop :=
  (∀ i, (D'.getMessage i).map Message.shell = (D.getMessage i).map Message.shell) ∧
    D'.enums.map Enumerator.core = D.enums.map Enumerator.core ∧ D'.shell = D.shell

theorem SameShells.refl (D : FileDescriptor) : SameShells D D := ⟨fun _ => rfl, rfl, rfl⟩

theorem SameShells.trans {a b c : FileDescriptor} (h : SameShells a b) (k : SameShells b c) : SameShells a c :=
  ⟨fun i => (k.1 i).trans (h.1 i), k.2.1.trans h.2.1, k.2.2.trans h.2.2⟩

theorem shell_ownFields (h : Field → Field) (m : Message) : (m.ownFields h).shell = m.shell := by
  simp [Message.shell, Message.ownFields, OneOf.shell, Function.comp_def]

theorem shell_at (m : Message) (i : MessageIndex) : (m.at i).shell = m.shell := by
  simp only [Message.shell, Message.at]
  congr 1
  rw [List.map_map]
  refine List.ext_getElem? fun k => ?_
  simp only [List.getElem?_map, List.getElem?_zipIdx]
  cases m.enums[k]? <;> rfl

theorem shells_mapDeep (h : Field → Field) (D : FileDescriptor) :
    SameShells D { D with messages := Message.mapDeepAll h D.messages } := by
  refine ⟨fun i => ?_, rfl, rfl⟩
  rw [getMessage_mapDeep, Option.map_map]
  congr 1
  funext m
  cases m
  simp [Message.shell, Message.mapDeep, OneOf.shell, Function.comp_def]

theorem shells_top (h : Field → Field) (D : FileDescriptor) :
    SameShells D { D with messages := D.messages.map (Message.mapAllFields h) } := by
  refine ⟨fun i => ?_, rfl, rfl⟩
  cases i with
  | nil => rfl
  | cons j js =>
    simp only [FileDescriptor.getMessage, List.getElem?_map]
    cases D.messages[j]? with
    | none => rfl
    | some m =>
      cases js with
      | nil => simp [Message.descend, Message.shell, Message.mapAllFields, OneOf.shell, Function.comp_def]
      | cons k ks => rfl

theorem shells_setDefaults {path : FieldType → Str} {D D' : FileDescriptor} (h : D.setDefaults path = some D') :
    SameShells D D' := by
  unfold FileDescriptor.setDefaults at h
  simp only at h
  split at h
  · cases h
  · rename_i ms hms
    cases h
    have e := sanitizeDefaultsAll_eq _ _ _ hms
    subst e
    split
    · exact ((shells_top _ D).trans (shells_mapDeep (defaulted path) _)).trans (shells_top _ _)
    · exact (shells_mapDeep (defaulted path) D).trans (shells_top _ _)

theorem shells_convert (cfg : Config) (D : FileDescriptor) :
    SameShells D (if cfg.dontUseCow then (D.convertFieldTypes .stringCow .string_).convertFieldTypes .bytesCow .bytes_ else D) := by
  split
  · exact (shells_mapDeep _ D).trans (shells_mapDeep _ _)
  · exact SameShells.refl D

theorem map_of_ownFields {x y : Option Message} {h k : Field → Field}
    (e : x.map (Message.ownFields h) = y.map (Message.ownFields k)) : x.map Message.shell = y.map Message.shell := by
  have := congrArg (Option.map Message.shell) e
  rw [Option.map_map, Option.map_map] at this
  simpa [Function.comp_def, shell_ownFields] using this

theorem shells_rewritten {D D' : FileDescriptor} {H : MessageIndex → Field → Field} (h : Rewritten D D' H) : SameShells D D' := by
  refine ⟨fun i => map_of_ownFields (h.messages i), ?_, ?_⟩
  · have := congrArg FileDescriptor.enums h.others
    exact congrArg (List.map Enumerator.core) this
  · have := congrArg (fun d : FileDescriptor => ({ d with enums := [] } : FileDescriptor)) h.others
    exact this

theorem shells_resolve {D D' : FileDescriptor} (h : D.resolveTypes = .ok D') : SameShells D D' := by
  obtain ⟨H, h1, _, h3, h4⟩ := C52_resolves h
  refine ⟨fun i => ?_, ?_, h3⟩
  · have := congrArg (Option.map Message.shell) (h1 i)
    rw [Option.map_map, Option.map_map] at this
    simpa [Function.comp_def, shell_ownFields, shell_at] using this
  · rw [h4, List.map_map]
    refine List.ext_getElem? fun k => ?_
    simp only [List.getElem?_map, List.getElem?_zipIdx]
    cases D.enums[k]? <;> rfl

theorem shell_sanitizeNames (m : Message) : m.sanitizeNames.shell = m.shell.sanitizeNames := by
  cases m
  simp [Message.shell, Message.sanitizeNames, Message.sanitizeNamesAll, Enumerator.sanitizeNames, Enumerator.core, OneOf.shell,
    OneOf.sanitizeNames, Function.comp_def]

/-- Compiling renames keywords in the heads of messages, oneofs and enums, and does nothing else to them. -/
theorem compile_shells {path : FileDescriptor → FieldType → Str} {cfg : Config} {D D' : FileDescriptor}
    (h : D.compile path cfg = .ok D') :
    (∀ i, (D'.getMessage i).map Message.shell = (D.getMessage i).map fun m => m.shell.sanitizeNames) ∧
      D'.enums.map Enumerator.core = D.enums.map (fun e => e.core.sanitizeNames) ∧ D'.shell = D.shell := by
  obtain ⟨D1, D2, D3, D4, S⟩ := compile_stages h
  have hI := C52_positions S.resolve
  obtain ⟨_, H2, hR, _⟩ := breakCycles_ok hI S.cycles
  have l := shells_convert cfg D2
  rw [← S.convert] at l
  have k := (((shells_resolve S.resolve).trans (shells_rewritten hR)).trans l).trans (shells_setDefaults S.defaults)
  rw [S.names]
  refine ⟨fun i => ?_, ?_, ?_⟩
  · rw [getMessage_sanitizeNames, Option.map_map]
    have := congrArg (Option.map Message.sanitizeNames) (k.1 i)
    rw [Option.map_map, Option.map_map] at this
    simpa [Function.comp_def, shell_sanitizeNames] using this
  · have := congrArg (List.map Enumerator.sanitizeNames) k.2.1
    rw [List.map_map, List.map_map] at this
    simp only [FileDescriptor.sanitizeNames, List.map_map]
    exact this
  · exact k.2.2

/-- Compiling renames keywords in enums, and does nothing else to them. -/
theorem compile_getEnum {path : FileDescriptor → FieldType → Str} {cfg : Config} {D D' : FileDescriptor}
    (h : D.compile path cfg = .ok D') (e : EnumIndex) :
    (D'.getEnum e).map Enumerator.core = (D.getEnum e).map fun e => e.core.sanitizeNames := by
  obtain ⟨h1, h2, _⟩ := compile_shells h
  obtain ⟨i, k⟩ := e
  cases i with
  | nil =>
    have := congrArg (·[k]?) h2
    simpa [FileDescriptor.getEnum] using this
  | cons j js =>
    simp only [FileDescriptor.getEnum, List.isEmpty_cons, Bool.false_eq_true, if_false]
    have := h1 (j :: js)
    cases h1 : D'.getMessage (j :: js) with
    | none =>
      cases h2 : D.getMessage (j :: js) with
      | none => rfl
      | some m => rw [h1, h2] at this; cases this
    | some m' =>
      cases h2 : D.getMessage (j :: js) with
      | none => rw [h1, h2] at this; cases this
      | some m =>
        rw [h1, h2] at this
        simp only [Option.map_some, Option.some.injEq] at this
        have := congrArg (fun x : Message => x.enums[k]?) this
        cases m
        cases m'
        simpa [Message.shell, Message.sanitizeNames, Function.comp_def] using this

end QP.Pbrs
