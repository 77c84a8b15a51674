import Verif.Props.Derives
import Verif.Proofs.Slices
set_option linter.unusedVariables false
/-!
# Field numbers (C120)
-/

namespace QP.Gen
open QP.Pbrs BytesReader

/-- The `match` of the generated `from_reader` never gets to this arm: another member has an arm with the same tag before it. -/
def Shadowed (cfg : Config) (m : Message) (j : Nat) : Prop :=
  ∀ a ∈ arms cfg m, a.slot = j → ∃ b, (arms cfg m).find? (fun c => c.field.tag == a.field.tag) = Option.some b ∧ b.slot ≠ j

/-- **C120**, what it would mean not to reject a file: a member all of whose tags are also those of members before it is never set by decoding, whatever the
input: it has its default value in every decoded message. -/
theorem C120_lost (C : Ctx) (idx : MessageIndex) (m : Message) (hm : C.D.getMessage idx = Option.some m) (j : Nat) (hj : Shadowed C.cfg m j)
    (fuel : Nat) (bytes : Bytes) (r r' : BytesReader) (v : RVal) (h : fromReader C fuel idx bytes r = (.ok v, r')) :
    v.slots[j]? = (C.dflt idx).slots[j]? := by
  cases fuel with
  | zero => cases h
  | succ n =>
    rw [fromReader] at h
    simp only [hm] at h
    have key : ∀ slots, Ens (msgStep C (fromReader C n) (n + 1) (arms C.cfg m) bytes slots) (fun s => s[j]? = slots[j]?) := by
      intro slots
      unfold msgStep
      refine Ens.seq fun t => ?_
      split
      · rename_i a ha
        refine Ens.seq fun w => ?_
        refine Ens.pure ?_
        have hne : a.slot ≠ j := by
          intro e
          have hmem := List.mem_of_find?_eq_some ha
          obtain ⟨b, hb, hbj⟩ := hj a hmem e
          have ht : a.field.tag = t := by simpa using List.find?_some ha
          rw [ht] at hb
          rw [ha] at hb
          cases hb
          exact hbj e
        unfold setSlot
        rw [List.getElem?_modify]
        simp [hne]
      · refine Ens.seq fun w => ?_
        exact Ens.pure rfl
    split at h
    · obtain ⟨_, _, _, h2⟩ := SM.bind_ok_inv h
      cases h2
      rfl
    · have := Ens.bind (ens_while (P := fun s : List RVal => s[j]? = (C.dflt idx).slots[j]?) (fun a ha r v r' hr => (key a r v r' hr).trans ha) (n + 1) _ rfl)
        (P := fun v : RVal => v.slots[j]? = (C.dflt idx).slots[j]?) (f := fun s => pure (RVal.struct s)) (fun s hs => Ens.pure (σ := BytesReader) (a := RVal.struct s) (P := fun v : RVal => v.slots[j]? = (C.dflt idx).slots[j]?) hs)
      exact this _ _ _ h

/-- Of two fields of a message with the same number and wire type the second is shadowed. -/
theorem shadowed_of {cfg : Config} {m : Message} {i j : Nat} {f g : Field} (hi : (members cfg m)[i]? = Option.some (.field f))
    (hj : (members cfg m)[j]? = Option.some (.field g)) (hij : i < j) (hn : f.number = g.number)
    (hw : f.typ.wireTypeNum f.isPacked = g.typ.wireTypeNum g.isPacked) : Shadowed cfg m j := by
  have ht : f.tag = g.tag := by
    unfold Field.tag Pbrs.tag
    rw [hn, hw]
  intro a ha e
  have hag : a.field = g := by
    unfold arms at ha
    obtain ⟨⟨mem, k⟩, hk, hak⟩ := List.mem_flatMap.mp ha
    have hk' := List.mem_zipIdx_iff_getElem?.mp hk
    simp only at hk' hak
    have slot : a.slot = k := by
      cases mem with
      | field x => simp only [List.mem_singleton] at hak; rw [hak]
      | oneof fs => obtain ⟨p, _, rfl⟩ := List.mem_map.mp hak; rfl
    rw [e] at slot
    rw [← slot, hj] at hk'
    cases hk'
    simp only [List.mem_singleton] at hak
    rw [hak]
  rw [hag, ← ht]
  have split : (members cfg m).zipIdx = (members cfg m).zipIdx.take (i + 1) ++ (members cfg m).zipIdx.drop (i + 1) := (List.take_append_drop _ _).symm
  have hmem : (Member.field f, i) ∈ (members cfg m).zipIdx.take (i + 1) := by
    refine List.mem_of_getElem? (i := i) ?_
    rw [List.getElem?_take, if_pos (by omega), List.getElem?_zipIdx, hi]
    simp
  unfold arms
  rw [split, List.flatMap_append, List.find?_append]
  cases hb : (((members cfg m).zipIdx.take (i + 1)).flatMap fun (x : Member × Nat) => match x.1 with
    | .field f => [(⟨x.2, f, Option.none⟩ : Arm)]
    | .oneof fs => fs.zipIdx.map fun (y : Field × Nat) => ⟨x.2, y.1, Option.some y.2⟩).find? (fun c => c.field.tag == f.tag) with
  | none =>
    have := List.find?_eq_none.mp hb ⟨i, f, Option.none⟩ (List.mem_flatMap.mpr ⟨_, hmem, List.mem_singleton.mpr rfl⟩)
    simp at this
  | some b =>
    refine ⟨b, rfl, ?_⟩
    obtain ⟨⟨mem, k⟩, hk, hbk⟩ := List.mem_flatMap.mp (List.mem_of_find?_eq_some hb)
    have slot : b.slot = k := by
      cases mem with
      | field x => simp only [List.mem_singleton] at hbk; rw [hbk]
      | oneof fs => obtain ⟨p, _, rfl⟩ := List.mem_map.mp hbk; rfl
    obtain ⟨n, hnk⟩ := List.getElem?_of_mem hk
    rw [List.getElem?_take] at hnk
    split at hnk
    · rw [List.getElem?_zipIdx] at hnk
      obtain ⟨_, _, e2⟩ := Option.map_eq_some_iff.mp hnk
      simp only [Prod.mk.injEq] at e2
      omega
    · cases hnk

/-- C120 matters: of two fields of a message with the same number and wire type the second is lost, for every schema, every value that was written and every
input: decoding never sets it. -/
theorem C120_refuted_lost (C : Ctx) (idx : MessageIndex) (m : Message) (hm : C.D.getMessage idx = Option.some m) {i j : Nat} {f g : Field}
    (hi : (members C.cfg m)[i]? = Option.some (.field f)) (hj : (members C.cfg m)[j]? = Option.some (.field g)) (hij : i < j) (hn : f.number = g.number)
    (hw : f.typ.wireTypeNum f.isPacked = g.typ.wireTypeNum g.isPacked)
    (fuel : Nat) (bytes : Bytes) (r r' : BytesReader) (v : RVal) (h : fromReader C fuel idx bytes r = (.ok v, r')) :
    v.slots[j]? = (C.dflt idx).slots[j]? :=
  C120_lost C idx m hm j (shadowed_of hi hj hij hn hw) fuel bytes r r' v h

end QP.Gen

namespace QP.Pbrs
open RunExample

/-- **C120.** No field of any message that pb-rs has read has a negative number or one of more than 31 bits: such numbers are rejected. -/
theorem C120_range_partial {fs : Files} {search : List Str} {n : Nat} {file : Str} {D : FileDescriptor} (hr : readProtoFile fs search n file = .ok D)
    {idx : MessageIndex} {m : Message} (hm : D.getMessage idx = some m) : ∀ f ∈ m.allFields, 0 ≤ f.number ∧ f.number < 2 ^ 31 := by
  intro f hf
  have ho := getMessage_out (readProtoFile_out n hr) hm
  cases ho with
  | mk h1 h2 h3 =>
    rcases List.mem_append.mp hf with h | h
    · exact (h1 f h).1.number
    · obtain ⟨o, ho, hfo⟩ := List.mem_flatMap.mp h
      exact (h2 o ho f hfo).number

namespace NumberExample

def twice : Disk := disk [(c! "x.proto", c! "message M { optional int32 a = 1; optional int32 b = 1; }")] []
def zero : Disk := disk [(c! "x.proto", c! "message M { optional int32 a = 0; }")] []
def large : Disk := disk [(c! "x.proto", c! "message M { optional int32 a = 536870912; }")] []
def reserved : Disk := disk [(c! "x.proto", c! "message M { optional int32 a = 19000; }")] []
def tooLarge : Disk := disk [(c! "x.proto", c! "message M { optional int32 a = 2147483648; }")] []
def negative : Disk := disk [(c! "x.proto", c! "message M { optional int32 a = -1; }")] []

/-- The numbers of the fields of the first message after compilation. -/
def numbers (d : Disk) : Option (List Int) := (abJob.compiled 1 d).bind fun E => E.messages[0]?.map fun m => m.fields.map (·.number)

end NumberExample

open NumberExample in
/-- C120 is false: pb-rs accepts two fields with the same number, the number zero, numbers of 2^29 and more, and those reserved for implementations. -/
theorem C120_refuted : (writeProto [] 1 abJob twice).1.isOk = true ∧ numbers twice = some [1, 1] ∧
    (writeProto [] 1 abJob zero).1.isOk = true ∧ numbers zero = some [0] ∧
    (writeProto [] 1 abJob large).1.isOk = true ∧ numbers large = some [2 ^ 29] ∧
    (writeProto [] 1 abJob reserved).1.isOk = true ∧ numbers reserved = some [19000] := by
  refine ⟨by decide +kernel, by decide +kernel, by decide +kernel, by decide +kernel, by decide +kernel, by decide +kernel, by decide +kernel, by decide +kernel⟩

open NumberExample in
/-- Numbers that are too large for `i32`, and negative ones, are rejected. -/
theorem C120_example : (writeProto [] 1 abJob tooLarge).1.isOk = false ∧ (writeProto [] 1 abJob negative).1.isOk = false ∧
    (readProtoFile large.file abJob.search 1 abJob.inFile).isOk = true := by
  refine ⟨by decide +kernel, by decide +kernel, by decide +kernel⟩

end QP.Pbrs
