import Verif.Spec.Presence
import Verif.Proofs.Merge
import Verif.Props.Merge
import Verif.Props.Compat
import Verif.Props.Example
import Verif.Props.Compile
/-!
# C100: a field is on the wire if and only if it is set
-/

set_option linter.unusedVariables false

namespace QP.Gen
open QP.Pbrs Spec

theorem memberItems_length {C : Ctx} {Q : Field → RVal → Prop} {subT : MessageIndex → RVal → Prop} {mem : Member} (hok : MemberOk mem) {v : RVal}
    (hv : MemberTyped C Q subT mem v) (j : Nat) : (memberItems C j mem v).length = occurrences C mem v := by
  cases mem with
  | oneof fs =>
    rcases hv with rfl | ⟨i, f, x, hf, rfl, _⟩
    · rfl
    · simp [memberItems, occurrences, hf]
  | field f =>
    have hmap := hok.map
    simp only [MemberTyped, FieldTyped] at hv
    simp only [memberItems, List.length_map]
    cases hq : f.frequency <;>
      simp only [hq, Frequency.generated, Frequency.isMap, Frequency.isRepeated, Frequency.isOptional, Bool.false_eq_true, if_true, if_false] at hv hmap ⊢ <;>
      simp only [occurrences, hq]
    case p2optional =>
      rcases hv with rfl | ⟨x, rfl, _⟩ <;> rfl
    case p3optional =>
      rcases hv with rfl | ⟨x, rfl, _⟩ <;> rfl
    case p2required =>
      simp [Field.hasPresence, hq, ← hmap]
    case p3default =>
      simp only [Field.hasPresence, hq, ← hmap]
      cases hm : f.typ.asMessage <;> simp
      split <;> rfl
    case p2repeated =>
      split at hv
      · next h =>
        simp only [isPackedFixed, Bool.and_eq_true] at h
        split at hv <;> obtain ⟨p, rfl, _⟩ := hv <;> simp only [h.1, if_true] <;> split <;> rfl
      · obtain ⟨l, rfl, _⟩ := hv
        simp only
        split
        · split <;> rfl
        · rfl
    case p3repeated =>
      split at hv
      · next h =>
        simp only [isPackedFixed, Bool.and_eq_true] at h
        split at hv <;> obtain ⟨p, rfl, _⟩ := hv <;> simp only [h.1, if_true] <;> split <;> rfl
      · obtain ⟨l, rfl, _⟩ := hv
        simp only
        split
        · split <;> rfl
        · rfl
    case p2map =>
      obtain ⟨k, t, l, _, rfl, _⟩ := hv
      simp
    case p3map =>
      obtain ⟨k, t, l, _, rfl, _⟩ := hv
      simp

/-- **C100**, writing, any profile: the encoding of a value `v` is a sequence of records, each of a field of the message, and every member has as
many of them as it should (`occurrences`): `required` fields one, optional fields one if they are set, and so on. -/
theorem C100_written (C : Ctx) (hT : C.T.bigEndian = false) (hS : SchemaOk C) (hD : IsDefault C) (n : Nat) (idx : MessageIndex) (m : Message)
    (hm : C.D.getMessage idx = Option.some m) (v : RVal) (hv : WellTyped C Plain n idx v) (hsz : (writeImpl C n idx).get_size v < 2 ^ 32)
    (hbits : (writeImpl C n idx).get_size v < 2 ^ C.T.usizeBits) :
    ∃ (enc : Bytes) (us : List Item), Emits ((writeImpl C n idx).write_message v) enc ∧ Parses (Record C (Denotes C) m) enc (us.map Option.some) ∧
      ∀ (j : Nat) (mem : Member) (w : RVal), (members C.cfg m)[j]? = Option.some mem → v.slots[j]? = Option.some w →
        (us.filter (fun it => it.1.slot == j)).length = occurrences C mem w := by
  cases n with
  | zero => exact hv.elim
  | succ n =>
  have wv := exactWrite C hT hS (n + 1) idx v hv (by omega)
  have hv' := WellTyped.imp (Q' := Restorable C) (fun f v => Plain.restorable) (n + 1) idx v hv
  have lv := wv.2.1
  obtain ⟨m1, s, hm1, rfl, hl, ht⟩ := hv'
  rw [hm] at hm1
  cases hm1
  have he : encMsg C (n + 1) idx (.struct s) = (msgItems C m s).flatMap (itemEnc (encMsg C n)) := by simp [encMsg, hm, RVal.slots]
  rw [he] at lv
  have hself := msg_self hT hS hD n
  obtain ⟨us, hp, hr⟩ := items_self (enc := encMsg C n) (dec := Denotes C) hS hm ht (by omega) (fun w i hi hlw => by
    obtain ⟨v', h1, h2⟩ := hself i w hi (by omega) (by omega)
    exact ⟨v', ⟨n, h1⟩, h2⟩)
  refine ⟨_, us, wv.1, he ▸ hp, fun j mem w hj hw => ?_⟩
  have hw : s[j]? = Option.some w := hw
  have q := (reread_slot hr j).length_eq
  rw [msgItems_slot hj hw] at q
  obtain ⟨w', hw', tw⟩ := typed_slot hl ht hj
  rw [hw] at hw'
  cases hw'
  rw [← q]
  exact memberItems_length ((hS idx m hm).members mem (List.mem_of_getElem? hj)) tw j

theorem memberAfter_notNone {C : Ctx} {sub : MessageIndex → Bytes → RVal → Prop} {mem : Member} (hok : MemberOk mem) (hc : mem.canBeUnset = true) {d : RVal} {its : List Item}
    (harm : ∀ it ∈ its, ∃ k, it.1 ∈ memberArms mem k) (hne : its ≠ []) : memberAfter d its ≠ .none := by
  unfold memberAfter
  cases hl : its.getLast? with
  | none => exact absurd (List.getLast?_eq_none_iff.mp hl) hne
  | some it =>
    obtain ⟨a, x⟩ := it
    obtain ⟨k, hk⟩ := harm _ (List.mem_of_getLast? hl)
    cases mem with
    | oneof fs =>
      simp only [memberArms, List.mem_map] at hk
      obtain ⟨p, _, rfl⟩ := hk
      intro h
      cases h
    | field f =>
      simp only [memberArms, List.mem_singleton] at hk
      subst hk
      simp only
      split
      · intro h; cases h
      · simp only [Member.canBeUnset] at hc
        cases hq : f.frequency <;> simp only [hq, Frequency.isOptional, Bool.false_eq_true] at hc <;>
          simp only [hq, Frequency.generated, Frequency.isMap, Frequency.isRepeated, Frequency.isOptional, Bool.false_eq_true, if_true, if_false] <;>
          intro h <;> cases h

/-- **C100**, reading, any profile: whatever records `us` (known or unknown fields) the bytes are a sequence of, they are decoded, and an optional
field or a oneof is set in the result if and only if there is a record for it; every other member without a record has its default. What is missing: an error if a `required` field has no record
(`C100_refuted_required`, `C100_refuted_cycle`). -/
theorem C100_read_partial (C : Ctx) (hS : SchemaOk C) (hD : IsDefault C) (idx : MessageIndex) (m : Message)
    (hm : C.D.getMessage idx = Option.some m) (b : Bytes) (us : List (Option Item)) (h : Parses (Record C (Denotes C) m) b us)
    (hl : b.length < 2 ^ C.T.usizeBits) :
    ∃ v, decode C idx b = .ok v ∧ ∀ (j : Nat) (mem : Member), (members C.cfg m)[j]? = Option.some mem → ∃ w, v.slots[j]? = Option.some w ∧
      (mem.canBeUnset = true → (w = .none ↔ ∀ it, Option.some it ∈ us → it.1.slot ≠ j)) ∧
      ((∀ it, Option.some it ∈ us → it.1.slot ≠ j) → w = slotDefault C (m.mustGenerateImplDefault C.D C.cfg) mem) := by
  refine ⟨_, C63_decode_complete C hS idx b _ hl (denotes_records hm h), fun j mem hj => ?_⟩
  rw [isUnit_of_member hj]
  simp only [Bool.false_eq_true, if_false]
  refine ⟨_, slotsAfter_get (dflt_get hD hm hj), ?_⟩
  have hnil : (∀ it, Option.some it ∈ us → it.1.slot ≠ j) → (us.filterMap id).filter (·.1.slot == j) = [] := by
    intro h
    rw [List.filter_eq_nil_iff]
    intro it hit
    simp only [List.mem_filterMap, id_eq] at hit
    obtain ⟨o, ho, rfl⟩ := hit
    simpa using h it ho
  have hdef : (∀ it, Option.some it ∈ us → it.1.slot ≠ j) →
      memberAfter (slotDefault C (m.mustGenerateImplDefault C.D C.cfg) mem) ((us.filterMap id).filter (·.1.slot == j)) =
        slotDefault C (m.mustGenerateImplDefault C.D C.cfg) mem := by
    intro h
    rw [hnil h]
    rfl
  refine ⟨fun hc => ⟨?_, fun h => ?_⟩, hdef⟩
  · intro hn it hit hs
    refine memberAfter_notNone (C := C) (sub := Denotes C) ((hS idx m hm).members mem (List.mem_of_getElem? hj)) hc ?_ ?_ hn
    · intro it' hit'
      rw [List.mem_filter, List.mem_filterMap] at hit'
      obtain ⟨⟨o, ho, rfl⟩, hs'⟩ := hit'
      have : it'.1 ∈ arms C.cfg m := by
        clear hnil hdef hn hl hit
        have ho : Option.some it' ∈ us := ho
        induction h with
        | nil => cases ho
        | cons hr _ ih =>
          rcases List.mem_cons.mp ho with ho | ho
          · subst ho
            obtain ⟨g, p, _, _, h | h⟩ := hr
            · obtain ⟨a, ha, x, _, _, hu⟩ := h
              cases hu
              exact ha
            · cases h.2.2
          · exact ih ho ho
      obtain ⟨mem', h1, h2⟩ := mem_arms.mp this
      have hs' : it'.1.slot = j := by simpa using hs'
      rw [hs', hj] at h1
      cases h1
      exact ⟨_, h2⟩
    · intro hnil
      have := List.filter_eq_nil_iff.mp hnil it (by rw [List.mem_filterMap]; exact ⟨_, hit, rfl⟩)
      simp [hs] at this
  · rw [hdef h]
    cases mem with
    | oneof _ => rfl
    | field f =>
      simp only [Member.canBeUnset] at hc
      cases hq : f.frequency <;> simp only [hq, Frequency.isOptional, Bool.false_eq_true] at hc <;> simp [slotDefault, hq, Frequency.generated, Frequency.isMap, Frequency.isRepeated, Frequency.isOptional]

/-! ## Required fields -/

namespace Need

/-- `message M { required int32 a = 1 [default = 5]; optional int32 b = 2; }` -/
def fA : Field := { name := "a".toList, frequency := .p2required, typ := .int32, number := 1, default := some "5".toList }
def fB : Field := { name := "b".toList, frequency := .p2optional, typ := .int32, number := 2 }
def msg : Message := { name := "M".toList, fields := [fA, fB], index := [0] }

def ctx : Ctx :=
  { T := Target.debug64, D := { syntax_ := .proto2, messages := [msg] }, cfg := {}, dflt := fun _ => .struct [.w32 5, .none], const := fun _ _ => .w32 5 }

theorem get_m (idx : MessageIndex) (m : Message) (h : ctx.D.getMessage idx = Option.some m) : idx = [0] ∧ m = msg := by
  match idx with
  | [] => simp [FileDescriptor.getMessage] at h
  | [0] =>
    simp [FileDescriptor.getMessage, ctx, Message.descend] at h
    exact ⟨rfl, h.symm⟩
  | 0 :: i :: is => simp [FileDescriptor.getMessage, ctx, Message.descend, msg] at h
  | (n + 1) :: is => simp [FileDescriptor.getMessage, ctx] at h

theorem members_m : members ctx.cfg msg = [.field fA, .field fB] := rfl

theorem schemaOk : SchemaOk ctx := by
  intro idx m h
  obtain ⟨rfl, rfl⟩ := get_m idx m h
  refine ⟨?_, (by decide : ((arms {} msg).map (·.field.number)).Nodup)⟩
  rw [members_m]
  intro mem hmem
  simp only [List.mem_cons, List.not_mem_nil, or_false] at hmem
  rcases hmem with rfl | rfl
  · exact ⟨(by decide : (0 : Int) < 1 ∧ (1 : Int) < 2 ^ 29), rfl, fun h => absurd h (by decide : ¬ false = true), fun h => absurd h (by decide : ¬ false = true)⟩
  · exact ⟨(by decide : (0 : Int) < 2 ∧ (2 : Int) < 2 ^ 29), rfl, fun h => absurd h (by decide : ¬ false = true), fun h => absurd h (by decide : ¬ false = true)⟩

theorem isDefault : IsDefault ctx := by
  intro idx m h
  obtain ⟨rfl, rfl⟩ := get_m idx m h
  rfl

theorem typed : WellTyped ctx Plain 1 [0] (.struct [.w32 5, .none]) := by
  refine ⟨_, _, rfl, rfl, rfl, ?_⟩
  intro p hp
  have : p = (.field fA, .w32 5) ∨ p = (.field fB, .none) := by
    rw [show (members ctx.cfg msg).zip [RVal.w32 5, RVal.none] = [(.field fA, .w32 5), (.field fB, .none)] from rfl] at hp
    simpa using hp
  rcases this with rfl | rfl
  · exact ⟨⟨_, rfl⟩, fun h => absurd h (by decide)⟩
  · exact Or.inl rfl

end Need

/-- **C100**, an example: a `required` field is written even when it has its default, an optional field that is not set is not. -/
theorem C100_example : Emits ((writeImpl Need.ctx 1 [0]).write_message (.struct [.w32 5, .none])) [0x08#8, 5#8] ∧
    occurrences Need.ctx (.field Need.fA) (.w32 5) = 1 ∧ occurrences Need.ctx (.field Need.fB) .none = 0 ∧
    ∃ (enc : Bytes) (us : List Item), Emits ((writeImpl Need.ctx 1 [0]).write_message (.struct [.w32 5, .none])) enc ∧
      Parses (Record Need.ctx (Denotes Need.ctx) Need.msg) enc (us.map Option.some) ∧
      (us.filter (fun it : Item => it.1.slot == 0)).length = 1 ∧ (us.filter (fun it : Item => it.1.slot == 1)).length = 0 := by
  refine ⟨?_, rfl, rfl, ?_⟩
  · have h := C62_wire_format Need.ctx rfl Need.schemaOk 1 [0] _ (WellTyped.imp (Q' := AnyValue) (fun _ _ _ _ _ => trivial) 1 [0] _ Need.typed) (by decide +kernel)
    rwa [show encMsg Need.ctx 1 [0] (.struct [.w32 5, .none]) = [0x08#8, 5#8] from by decide +kernel] at h
  · obtain ⟨enc, us, h1, h2, h3⟩ := C100_written Need.ctx rfl Need.schemaOk Need.isDefault 1 [0] Need.msg rfl _ Need.typed (by decide +kernel) (by decide +kernel)
    exact ⟨enc, us, h1, h2, h3 0 _ _ rfl rfl, h3 1 _ _ rfl rfl⟩

/-- **C100** fails for reading `required` fields, everywhere: no message is ever rejected for lack of a field. The empty input is accepted as the
default of any message. -/
theorem C100_refuted_required (C : Ctx) (hS : SchemaOk C) (idx : MessageIndex) (m : Message) (hm : C.D.getMessage idx = Option.some m)
    (hD : IsDefault C) : decode C idx [] = .ok (C.dflt idx) := by
  refine C63_decode_complete C hS idx [] _ (Nat.pow_pos (by decide)) ?_
  have h := denotes_records (C := C) hm (.nil (R := Record C (Denotes C) m))
  cases hu : m.isUnit with
  | true => rwa [hu, if_pos rfl] at h
  | false =>
    rw [hu] at h
    have e : RVal.struct (slotsAfter (C.dflt idx).slots []) = C.dflt idx := by
      rw [hD idx m hm]
      simp only [slotsAfter, memberAfter, RVal.slots, List.filterMap_nil, List.filter_nil, List.getLast?_nil, RVal.struct.injEq]
      rw [show (fun (j : Nat) (v : RVal) => v) = fun _ v => id v from rfl, List.mapIdx_eq_zipIdx_map]
      simp
    simpa [e] using h

/-- What `break_cycles` makes of the message `B` of `message A { optional B b = 1; } message B { required A a = 1; }`. -/
def CycleExample.fA : Field := { CycleExample.field "a" .p2optional 1 [0] with boxed := true }
def CycleExample.msgB : Message := { name := "B".toList, fields := [CycleExample.fA], index := [1] }

/-- **C100** fails for `required` fields on a cycle of messages (`message A { optional B b = 1; } message B { required A a = 1; }`): the generated
field is optional, and `B { a: None }`, which lacks a required field, is encoded as nothing at all. -/
theorem C100_refuted_cycle : ∃ D' : FileDescriptor,
    CycleExample.pair.getMessage [1] = Option.some { CycleExample.msgB with fields := [{ CycleExample.fA with frequency := .p2required, boxed := false }] } ∧
    CycleExample.pair.breakCycles false = some (.ok D') ∧ D'.getMessage [1] = Option.some CycleExample.msgB ∧
    ∀ C : Ctx, C.D = D' → C.cfg = {} →
      Emits ((writeImpl C 1 [1]).write_message (.struct [.none])) [] := by
  refine ⟨_, rfl, rfl, rfl, fun C hC hc => ?_⟩
  have hm : C.D.getMessage [1] = Option.some CycleExample.msgB := by rw [hC]; rfl
  have hmem : members C.cfg CycleExample.msgB = [.field CycleExample.fA] := by rw [hc]; rfl
  refine ⟨[], fun W _ => ?_, rfl⟩
  simp only [writeImpl, hm, hmem]
  rfl

end QP.Gen
