import Verif.Proofs.GenMsg
/-! Generated decoders move forward and are local (with overflow checks on). -/

set_option linter.unusedVariables false

namespace QP.Gen
open QP.Pbrs Spec BytesReader

section
variable {C : Ctx} {rd : MessageIndex → Bytes → RM RVal}

theorem good_readTyp (hT : C.T.overflowChecks = true) (hrd : ∀ m, GoodEntry C.T (rd m)) (t : FieldType) :
    Good C.T (readTyp C rd t) := by
  have h16 := C16_reads_orderly_local C.T hT
  have hm : ∀ {α : Type} {p : Bytes → RM α} (f : α → RVal), Good C.T p →
      Good C.T (fun b => do let x ← p b; pure (f x)) := fun f hp => Good.bind hp (fun a => Good.pure (f a))
  obtain ⟨_, ⟨i32, i64, u32, u64, s32, s64, bo, en⟩, ⟨f32, f64, sf32, sf64, fl, db⟩, ⟨by_, st, _, _⟩, _⟩ := h16
  cases t
  case int32 => exact hm RVal.w32 i32
  case int64 => exact hm RVal.w64 i64
  case uint32 => exact hm RVal.w32 u32
  case uint64 => exact hm RVal.w64 u64
  case sint32 => exact hm RVal.w32 s32
  case sint64 => exact hm RVal.w64 s64
  case bool => exact hm RVal.bool bo
  case enum e => exact hm RVal.w32 (en _ (enumFrom (C.enumNums e)))
  case fixed64 => exact hm RVal.w64 f64
  case sfixed64 => exact hm RVal.w64 sf64
  case double => exact hm RVal.w64 db
  case fixed32 => exact hm RVal.w32 f32
  case sfixed32 => exact hm RVal.w32 sf32
  case float => exact hm RVal.w32 fl
  case stringCow => exact hm RVal.bytes st
  case string_ => exact hm RVal.bytes st
  case bytesCow => exact hm RVal.bytes by_
  case bytes_ => exact hm RVal.bytes by_
  case message m => exact Good.read_len_varint (hrd m)
  case messageOrEnum => exact Good.lift _
  case map => exact Good.lift _

theorem good_armRead (hT : C.T.overflowChecks = true) (hrd : ∀ m, GoodEntry C.T (rd m)) (fuel : Nat) (a : Arm) :
    Good C.T (armRead C rd fuel a) := by
  have hr := good_readTyp hT hrd
  unfold armRead
  refine Good.ite (hr _) ?_
  cases a.field.frequency.generated
  · exact hr _
  · refine Good.ite (Good.ite (Good.ite ?_ ?_) ?_) (hr _)
    · exact Good.bind (Good.read_packed_fixed hT _) (fun p => Good.pure _)
    · exact Good.bind (Good.read_packed_fixed hT _) (fun p => Good.pure _)
    · exact Good.bind (good_packed (hr _) fuel) (fun p => Good.pure _)
  · cases a.field.typ
    case map k v =>
      exact Good.bind (good_map (hr k) (hr v) fuel (typDefault C k) (typDefault C v)) (fun p => Good.pure _)
    all_goals exact Good.lift _

theorem good_msgStep (hT : C.T.overflowChecks = true) (hrd : ∀ m, GoodEntry C.T (rd m)) (fuel : Nat)
    (as : List Arm) (slots : List RVal) :
    Good C.T (fun b => msgStep C rd fuel as b slots) := by
  unfold msgStep
  refine Good.bind Good.read_varint32 (fun t => ?_)
  cases as.find? (fun a => a.field.tag == t) with
  | none => exact Good.bind (Good.read_unknown hT t) (fun _ => Good.pure _)
  | some a => exact Good.bind (good_armRead hT hrd fuel a) (fun _ => Good.pure _)

end

/-- The three cases of `fromReader`. -/
theorem fromReader_none {C : Ctx} {idx : MessageIndex} (n : Nat) (h : C.D.getMessage idx = none) :
    fromReader C (n + 1) idx = fun _ => SM.lift .panic := by
  funext b; simp only [fromReader, h]

theorem fromReader_unit {C : Ctx} {idx : MessageIndex} {m : Message} (n : Nat)
    (h : C.D.getMessage idx = some m) (hu : m.isUnit = true) :
    fromReader C (n + 1) idx = fun _ => (do read_to_end; pure (C.dflt idx)) := by
  funext b; simp only [fromReader, h, hu, if_true]

theorem fromReader_msg {C : Ctx} {idx : MessageIndex} {m : Message} (n : Nat)
    (h : C.D.getMessage idx = some m) (hu : m.isUnit = false) :
    fromReader C (n + 1) idx = fun b => (do
      let slots ← whileNotEof (msgStep C (fromReader C n) (n + 1) (arms C.cfg m) b) (n + 1)
        (C.dflt idx).slots
      pure (.struct slots)) := by
  funext b; simp only [fromReader, h, hu, Bool.false_eq_true, if_false]

theorem goodEntry_fromReader {C : Ctx} (hT : C.T.overflowChecks = true) (n : Nat) (idx : MessageIndex) :
    GoodEntry C.T (fromReader C n idx) := by
  induction n generalizing idx with
  | zero => exact Good.entry (Good.lift _)
  | succ n ih =>
    cases h : C.D.getMessage idx with
    | none => rw [fromReader_none n h]; exact Good.entry (Good.lift _)
    | some m =>
      cases hu : m.isUnit
      · rw [fromReader_msg n h hu]
        exact Good.entry (Good.bind (Good.whileNotEof
          (step := fun b => msgStep C (fromReader C n) (n + 1) (arms C.cfg m) b)
          (fun s => good_msgStep hT ih (n + 1) _ s) (n + 1) _) (fun s => Good.pure _))
      · rw [fromReader_unit n h hu]
        exact GoodEntry.read_to_end.map (fun _ => C.dflt idx)

end QP.Gen
