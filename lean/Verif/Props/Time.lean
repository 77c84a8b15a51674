import Verif.Proofs.Counts
import Verif.Props.Memory
/-!
# C111: how long decoding takes
-/

set_option linter.unusedVariables false

namespace QP
open BytesReader

section
variable {α β : Type} {T : Target}

/-- `p` panics, or `q` does the same with the same work. -/
def FollowsAt {α : Type} (p q : RM α) (c d : BytesReader → Nat) : Prop := ∀ r, (p r).1 = .panic ∨ (q r = p r ∧ d r = c r)

theorem FollowsAt.of {p q : RM α} (h : Follows p q) {c : BytesReader → Nat} : FollowsAt p q c c :=
  fun r => (h r).imp id fun h => ⟨h, rfl⟩

theorem FollowsAt.follows {p q : RM α} {c d : BytesReader → Nat} (h : FollowsAt p q c d) : Follows p q :=
  fun r => (h r).imp id And.left

/-- A function of the result does not count. -/
theorem FollowsAt.map {p q : RM α} {c d : BytesReader → Nat} (h : FollowsAt p q c d) (f : α → RM β) : FollowsAt (p >>= f) (q >>= f) c d := by
  intro r
  rcases h r with h1 | ⟨h1, h2⟩
  · left
    rcases hp : p r with ⟨o, s⟩
    rw [hp] at h1
    simp only at h1
    subst h1
    simp only [SM.bind_run, hp]
  · right
    simp only [SM.bind_run, h1]
    exact ⟨trivial, h2⟩

theorem FollowsAt.loop {A : Type} {s s' : A → RM A} {c d : A → BytesReader → Nat} (h : ∀ a, FollowsAt (s a) (s' a) (c a) (d a)) :
    ∀ fuel acc, FollowsAt (whileNotEof s fuel acc) (whileNotEof s' fuel acc) (loopCost s c fuel acc) (loopCost s' d fuel acc)
  | 0, _ => fun r => Or.inr ⟨rfl, rfl⟩
  | fuel + 1, acc => by
    intro r
    simp only [whileNotEof, loopCost, SM.bind_run, SM.get_run]
    by_cases he : r.is_eof = true
    · rw [if_pos he, if_pos he, if_pos he, if_pos he]
      exact Or.inr ⟨rfl, rfl⟩
    · rw [if_neg he, if_neg he, if_neg he, if_neg he]
      rcases h acc r with h1 | ⟨h1, h2⟩
      · left
        rcases hp : s acc r with ⟨o, r1⟩
        rw [hp] at h1
        simp only at h1
        subst h1
        simp only [SM.bind_run, hp]
      · simp only [SM.bind_run, h1, h2]
        rcases hp : s acc r with ⟨o, r1⟩
        cases o with
        | ok a =>
          rcases FollowsAt.loop h fuel a r1 with k | ⟨k1, k2⟩
          · exact Or.inl k
          · exact Or.inr ⟨k1, by simp only [k2]⟩
        | _ => exact Or.inr ⟨rfl, rfl⟩

theorem usizeAdd_unchecked (a b : Nat) : T.usizeAdd a b = .panic ∨ ∃ fin, T.usizeAdd a b = .ok fin ∧ T.unchecked.usizeAdd a b = .ok fin := by
  have e : T.unchecked.usizeAdd a b = if a + b < 2 ^ T.usizeBits then .ok (a + b) else .ok ((a + b) % 2 ^ T.usizeBits) := rfl
  rw [e]
  unfold Target.usizeAdd
  split
  · exact Or.inr ⟨_, rfl, rfl⟩
  · cases T.overflowChecks
    · exact Or.inr ⟨_, rfl, rfl⟩
    · exact Or.inl rfl

theorem FollowsAt.len {p q : RM α} {c d : BytesReader → Nat} (h : FollowsAt p q c d) (b : Bytes) :
    FollowsAt (read_len_varint T b p) (read_len_varint T.unchecked b q) (lenCost T b c) (lenCost T.unchecked b d) := by
  intro r
  simp only [read_len_varint, lenCost, SM.bind_run]
  rcases hv : read_varint32 b r with ⟨o, r1⟩
  cases o with
  | ok v =>
    simp only [read_len, SM.bind_run, SM.get_run, SM.lift_run]
    rcases usizeAdd_unchecked (T := T) r1.start v.toNat with e | ⟨fin, e1, e2⟩
    · rw [e]; exact Or.inl rfl
    · simp only [e1, e2, SM.set_run]
      rcases h ⟨r1.start, fin⟩ with k | ⟨k1, k2⟩
      · left
        rcases hp : p ⟨r1.start, fin⟩ with ⟨o, s⟩
        rw [hp] at k
        simp only at k
        subst k
        rfl
      · right
        rw [k1, k2]
        exact ⟨rfl, rfl⟩
  | _ => exact Or.inr ⟨rfl, rfl⟩

end

namespace Gen
open QP.Pbrs Spec

section
variable {C : Ctx} {rd rd' : MessageIndex → Bytes → RM RVal} {rdc rdc' : MessageIndex → Bytes → BytesReader → Nat}

theorem followsAt_readTyp (h : ∀ m b, FollowsAt (rd m b) (rd' m b) (rdc m b) (rdc' m b)) (t : FieldType) (b : Bytes) :
    FollowsAt (readTyp C rd t b) (readTyp C.unchecked rd' t b) (typCost C rdc t b) (typCost C.unchecked rdc' t b) := by
  have hf := follows_readTyp (C := C) (fun m b => (h m b).follows) t b
  have hs : FollowsAt (read_string C.T b) (read_string C.unchecked.T b) (lenCost C.T b fun r => ((getRange b r.start r.fin).getD []).length)
      (lenCost C.unchecked.T b fun r => ((getRange b r.start r.fin).getD []).length) := FollowsAt.len (FollowsAt.of (Follows.refl _)) b
  have hb : FollowsAt (read_bytes C.T b) (read_bytes C.unchecked.T b) (lenCost C.T b fun r => ((getRange b r.start r.fin).getD []).length)
      (lenCost C.unchecked.T b fun r => ((getRange b r.start r.fin).getD []).length) := FollowsAt.len (FollowsAt.of (Follows.refl _)) b
  cases t
  case stringCow => exact hs.map _
  case string_ => exact hs.map _
  case bytesCow => exact hb.map _
  case bytes_ => exact hb.map _
  case message m => exact FollowsAt.len (h m b) b
  all_goals exact FollowsAt.of hf

theorem followsAt_armRead (h : ∀ m b, FollowsAt (rd m b) (rd' m b) (rdc m b) (rdc' m b)) (fuel : Nat) (a : Arm) (b : Bytes) :
    FollowsAt (armRead C rd fuel a b) (armRead C.unchecked rd' fuel a b) (armCost C rd rdc fuel a b) (armCost C.unchecked rd' rdc' fuel a b) := by
  have hr := fun t => followsAt_readTyp (C := C) h t b
  unfold armRead armCost
  split
  · exact hr _
  · cases a.field.frequency.generated
    · exact hr _
    · simp only
      split
      · split
        · have pf : ∀ {α : Type} (M : MemTy α), FollowsAt (read_packed_fixed C.T M b) (read_packed_fixed C.unchecked.T M b)
              (fixedCost C.T M b) (fixedCost C.unchecked.T M b) := fun M r => (follows_packed_fixed M b r).imp id fun h =>
            ⟨h, by unfold fixedCost; rw [show read_packed_fixed C.unchecked.T M b r = read_packed_fixed C.T M b r from h]⟩
          split
          · exact FollowsAt.map (pf (MemTy.int C.T 8)) _
          · exact FollowsAt.map (pf (MemTy.int C.T 4)) _
        · exact FollowsAt.map (FollowsAt.len ((FollowsAt.loop (fun _ => (hr _).map _) _ _).map _) b) _
      · exact hr _
    · cases a.field.typ
      case map k v =>
        have hd : ∀ t, typDefault C.unchecked t = typDefault C t := fun t => by cases t <;> rfl
        simp only [hd]
        have hl := FollowsAt.loop (s := fun (kv : RVal × RVal) => do
            let t ← read_u8 b
            let n := t >>> 3
            if n = 1#8 then do
              let k ← readTyp C rd k b
              pure (k, kv.2)
            else if n = 2#8 then do
              let v ← readTyp C rd v b
              pure (kv.1, v)
            else SM.throw (.Map n)) (s' := fun (kv : RVal × RVal) => do
            let t ← read_u8 b
            let n := t >>> 3
            if n = 1#8 then do
              let k ← readTyp C.unchecked rd' k b
              pure (k, kv.2)
            else if n = 2#8 then do
              let v ← readTyp C.unchecked rd' v b
              pure (kv.1, v)
            else SM.throw (.Map n)) (c := fun _ => entryCost C rdc k v b) (d := fun _ => entryCost C.unchecked rdc' k v b) (fun kv => by
              intro r
              simp only [SM.bind_run, entryCost]
              rcases hu : read_u8 b r with ⟨o, r1⟩
              cases o with
              | ok t =>
                simp only
                split
                · rcases ((hr k).map (fun k => pure (k, kv.2))) r1 with e | ⟨e1, e2⟩
                  · exact Or.inl e
                  · exact Or.inr ⟨e1, by rw [e2]⟩
                · split
                  · rcases ((hr v).map (fun v => pure (kv.1, v))) r1 with e | ⟨e1, e2⟩
                    · exact Or.inl e
                    · exact Or.inr ⟨e1, by rw [e2]⟩
                  · exact Or.inr ⟨rfl, rfl⟩
              | _ => exact Or.inr ⟨rfl, rfl⟩) fuel (typDefault C k, typDefault C v)
        have hl := FollowsAt.map (FollowsAt.len (T := C.T) hl b) (fun kv => (pure (RVal.map [kv]) : RM RVal))
        intro r
        rcases hl r with e | ⟨e1, e2⟩
        · exact Or.inl e
        · exact Or.inr ⟨e1, congrArg _ e2⟩
      all_goals exact FollowsAt.of (Follows.refl _)

theorem followsAt_fromReader (n : Nat) : ∀ idx b,
    FollowsAt (fromReader C n idx b) (fromReader C.unchecked n idx b) (msgCost C n idx b) (msgCost C.unchecked n idx b) := by
  induction n with
  | zero => intro idx b; exact FollowsAt.of (Follows.refl _)
  | succ n ih =>
    intro idx b
    have hm' : C.unchecked.D.getMessage idx = C.D.getMessage idx := rfl
    cases hm : C.D.getMessage idx with
    | none => exact fun r => Or.inr ⟨by simp only [fromReader, hm', hm], by simp only [msgCost, hm', hm]⟩
    | some m =>
      rw [hm] at hm'
      cases hu : m.isUnit
      · rw [fromReader_msg n hm hu, fromReader_msg n hm' hu]
        have hl := FollowsAt.loop (s := msgStep C (fromReader C n) (n + 1) (arms C.cfg m) b)
          (s' := msgStep C.unchecked (fromReader C.unchecked n) (n + 1) (arms C.unchecked.cfg m) b)
          (c := fun _ => stepCost C (fromReader C n) (msgCost C n) (n + 1) (arms C.cfg m) b)
          (d := fun _ => stepCost C.unchecked (fromReader C.unchecked n) (msgCost C.unchecked n) (n + 1) (arms C.unchecked.cfg m) b) (fun slots => by
            intro r
            simp only [msgStep, stepCost, SM.bind_run]
            rcases ht : next_tag b r with ⟨o, r1⟩
            cases o with
            | ok t =>
              simp only [show C.unchecked.cfg = C.cfg from rfl]
              cases hf : (arms C.cfg m).find? (fun a => a.field.tag == t) with
              | none =>
                simp only
                rcases Follows.bind (follows_unknown (T := C.T) b t) (fun _ => Follows.refl (pure slots)) r1 with e | e
                · exact Or.inl e
                · exact Or.inr ⟨e, trivial⟩
              | some a =>
                simp only
                rcases (followsAt_armRead ih (n + 1) a b).map (fun v => pure (setSlot a.slot (fun old => armApply a old v) slots)) r1 with e | ⟨e1, e2⟩
                · exact Or.inl e
                · exact Or.inr ⟨e1, by rw [e2]⟩
            | _ => exact Or.inr ⟨rfl, rfl⟩) (n + 1) (C.dflt idx).slots
        have hl := hl.map (fun s => (pure (RVal.struct s) : RM RVal))
        intro r
        rcases hl r with e | ⟨e1, e2⟩
        · exact Or.inl e
        · refine Or.inr ⟨e1, ?_⟩
          simp only [msgCost, hm, hm', hu, Bool.false_eq_true, if_false]
          exact congrArg _ e2
      · rw [fromReader_unit n hm hu, fromReader_unit n hm' hu]
        exact fun r => Or.inr ⟨rfl, by simp only [msgCost, hm, hm', hu, if_true]; rfl⟩

end

theorem loopCost_next {A : Type} {step : A → RM A} {cost : A → BytesReader → Nat} {n : Nat} {a a' : A} {r r' : BytesReader}
    (he : r.is_eof = false) (h : step a r = (.ok a', r')) :
    loopCost step cost (n + 1) a r = 1 + cost a r + loopCost step cost n a' r' := by
  simp only [loopCost, he, Bool.false_eq_true, if_false, h]

theorem le_loopCost {A : Type} {step : A → RM A} {cost : A → BytesReader → Nat} {n : Nat} {a : A} {r : BytesReader}
    (he : r.is_eof = false) : cost a r ≤ loopCost step cost (n + 1) a r := by
  simp only [loopCost, he, Bool.false_eq_true, if_false]
  exact Nat.le_trans (Nat.le_add_left _ 1) (Nat.le_add_right _ _)

theorem arms_bound (C : Ctx) : ∃ A, ∀ idx m, C.D.getMessage idx = Option.some m → (arms C.cfg m).length ≤ A := by
  have key : ∀ l : List (MessageIndex × Message), ∃ A, ∀ p ∈ l, (arms C.cfg p.2).length ≤ A := by
    intro l
    induction l with
    | nil => exact ⟨0, fun p hp => by cases hp⟩
    | cons p l ih =>
      obtain ⟨A, h2⟩ := ih
      refine ⟨A + (arms C.cfg p.2).length, fun q hq => ?_⟩
      rcases List.mem_cons.mp hq with rfl | hq
      · omega
      · have := h2 q hq; omega
  obtain ⟨A, h2⟩ := key (Message.preorderAll [] 0 C.D.messages)
  exact ⟨A, fun idx m hm => h2 (idx, m) ((mem_preorder_file C.D idx m).mpr hm)⟩

/-- **C111**, with overflow checks: for every schema there is a number `K` such that decoding any `n` bytes, as any message of the schema,
with or without the length in front, does at most `K * (n + 1)` units of work, whether it succeeds, fails or panics. -/
theorem C111_linear_partial (C : Ctx) (hT : C.T.overflowChecks = true) (hC : Resolved C) : ∃ K, ∀ idx b fuel, Roomy C.T b →
    msgCost C fuel idx b (from_bytes b) ≤ K * (b.length + 1) ∧
    lenCost C.T b (msgCost C fuel idx b) (from_bytes b) ≤ K * (b.length + 1) := by
  obtain ⟨W, hW, hd⟩ := dflt_bound C
  obtain ⟨A, hA⟩ := arms_bound C
  have hin : ∀ b, InRange b (from_bytes b) := fun b => ⟨by simp [from_bytes], by simp [from_bytes]⟩
  have hc := costs_fromReader (K := 3 * W + 6 + A) (L := 2 * W + 6 + A) hT hW hC hd hA (Nat.le_refl _) (Nat.le_refl _)
  refine ⟨3 * W + 6 + A, fun idx b fuel hR => ⟨?_, ?_⟩⟩
  · have := (hc fuel idx b _ hR (hin b) (by simp [from_bytes])).2
    rw [Nat.mul_add, Nat.mul_one]
    omega
  · have h := Costs.len (T := C.T) (K := 3 * W + 6 + A) (L := 1) (x := 0) (c := W + 1) (p := fromReader C fuel idx) (cost := msgCost C fuel idx)
      (by
        intro b r hR hr hle
        obtain ⟨h1, h2⟩ := hc fuel idx b r hR hr hle
        exact ⟨h1, by omega⟩) (by omega) (by omega) b (from_bytes b) hR (hin b)
    have := h.2
    dsimp only at this
    rw [Nat.mul_add, Nat.mul_one]
    omega

/-- **C111** without overflow checks, for all inputs on which a checked build does not panic. -/
theorem C111_release_partial (C : Ctx) (hT : C.T.overflowChecks = true) (hC : Resolved C) : ∃ K, ∀ idx b fuel, Roomy C.T b →
    (fromReader C fuel idx b (from_bytes b)).1 ≠ .panic → msgCost C.unchecked fuel idx b (from_bytes b) ≤ K * (b.length + 1) := by
  obtain ⟨K, hK⟩ := C111_linear_partial C hT hC
  refine ⟨K, fun idx b fuel hR hp => ?_⟩
  rw [((followsAt_fromReader fuel idx b _).resolve_left hp).2]
  exact (hK idx b fuel hR).1

/-- In general it is false without overflow checks: the work on fifteen bytes (those of C23) is unbounded. -/
theorem C111_refuted (N : Nat) : ∃ fuel, N ≤ msgCost (Example.ctx Target.release64) fuel [0] loopBytes (from_bytes loopBytes) := by
  have step1 : ∀ n, msgStep (Example.ctx Target.release64) (fromReader (Example.ctx Target.release64) n) (n + 1)
      (arms {} Example.node) loopBytes Example.nodeDefault.slots ⟨2, 3⟩
      = (.ok Example.nodeDefault.slots, ⟨4, 3⟩) := fun n => rfl
  have step2 : ∀ n, msgStep (Example.ctx Target.release64) (fromReader (Example.ctx Target.release64) n) (n + 1)
      (arms {} Example.node) loopBytes Example.nodeDefault.slots ⟨4, 3⟩
      = (.ok Example.nodeDefault.slots, ⟨2, 3⟩) := fun n => rfl
  have loop : ∀ n c k, k ≤ loopCost
      (msgStep (Example.ctx Target.release64) (fromReader (Example.ctx Target.release64) n) (n + 1)
        (arms {} Example.node) loopBytes) c (2 * k) Example.nodeDefault.slots ⟨2, 3⟩ := by
    intro n c k
    induction k with
    | zero => exact Nat.zero_le _
    | succ k ih =>
      rw [show 2 * (k + 1) = 2 * k + 1 + 1 by omega]
      rw [loopCost_next rfl (step1 n), loopCost_next rfl (step2 n)]
      omega
  refine ⟨2 * (N + 1) + 1, ?_⟩
  have hu : Example.node.isUnit = false := rfl
  have inner : N + 1 ≤ msgCost (Example.ctx Target.release64) (2 * (N + 1)) [0] loopBytes ⟨2, 3⟩ := by
    have := loop (2 * N + 1) (fun _ => stepCost (Example.ctx Target.release64) (fromReader (Example.ctx Target.release64) (2 * N + 1))
      (msgCost (Example.ctx Target.release64) (2 * N + 1)) (2 * N + 1 + 1) (arms {} Example.node) loopBytes) (N + 1)
    rw [show 2 * (N + 1) = 2 * N + 1 + 1 by omega] at this ⊢
    simp only [msgCost, Example.get_node0, hu, Bool.false_eq_true, if_false]
    exact Nat.le_trans this (Nat.le_add_left _ _)
  have ht : next_tag loopBytes ⟨0, 15⟩ = (.ok 0x3a#32, ⟨1, 15⟩) := rfl
  have hfind : (arms {} Example.node).find? (fun a => a.field.tag == 0x3a#32) = Option.some ⟨6, Example.fChild, Option.none⟩ := rfl
  have hv : read_varint32 loopBytes ⟨1, 15⟩ = (.ok 1#32, ⟨2, 15⟩) := rfl
  have hadd : (Example.ctx Target.release64).T.usizeAdd 2 (1#32 : BitVec 32).toNat = .ok 3 := rfl
  have hty : ∀ rdc, typCost (Example.ctx Target.release64) rdc (.message [0]) loopBytes ⟨1, 15⟩ = 1 + rdc [0] loopBytes ⟨2, 3⟩ := by
    intro rdc
    simp only [typCost, lenCost, hv, hadd]
  have harm : ∀ rd rdc fuel, armCost (Example.ctx Target.release64) rd rdc fuel ⟨6, Example.fChild, Option.none⟩ loopBytes ⟨1, 15⟩
      = 1 + rdc [0] loopBytes ⟨2, 3⟩ := fun rd rdc fuel => hty rdc
  have hst : N ≤ stepCost (Example.ctx Target.release64) (fromReader (Example.ctx Target.release64) (2 * (N + 1)))
      (msgCost (Example.ctx Target.release64) (2 * (N + 1))) (2 * (N + 1) + 1) (arms {} Example.node) loopBytes ⟨0, 15⟩ := by
    have e : stepCost (Example.ctx Target.release64) (fromReader (Example.ctx Target.release64) (2 * (N + 1)))
      (msgCost (Example.ctx Target.release64) (2 * (N + 1))) (2 * (N + 1) + 1) (arms {} Example.node) loopBytes ⟨0, 15⟩
        = 1 + ((arms {} Example.node).length + (1 + msgCost (Example.ctx Target.release64) (2 * (N + 1)) [0] loopBytes ⟨2, 3⟩)) := by
      simp only [stepCost, ht, hfind, harm]
    rw [e]
    omega
  rw [msgCost]
  simp only [Example.get_node0, hu, Bool.false_eq_true, if_false]
  exact Nat.le_trans hst (Nat.le_trans (le_loopCost (cost := fun _ => stepCost (Example.ctx Target.release64)
    (fromReader (Example.ctx Target.release64) (2 * (N + 1))) (msgCost (Example.ctx Target.release64) (2 * (N + 1))) (2 * (N + 1) + 1)
    (arms {} Example.node) loopBytes) (r := ⟨0, 15⟩) rfl) (Nat.le_add_left _ _))

/-- The counter misses nothing that is built: the parts of the value that decoding returns (C91) are at most the units counted, for every
schema, input and build profile. -/
theorem C111_counts (C : Ctx) (fuel : Nat) (idx : MessageIndex) (b : Bytes) (r : BytesReader) (v : RVal)
    (h : (fromReader C fuel idx b r).1 = .ok v) : v.weight ≤ msgCost C fuel idx b r := by
  rcases hx : fromReader C fuel idx b r with ⟨o, r'⟩
  rw [hx] at h
  simp only at h
  subst h
  have := counts_fromReader fuel idx b r v r' hx
  omega

/-- What the counter counts: a `tags` (field 5) of three bytes, and an unknown field 12 of 20 bytes, skipped at once. -/
def timed : Bytes := [0x2a#8, 3#8, 0x61#8, 0x62#8, 0x63#8, 0x62#8, 20#8] ++ List.replicate 20 0#8

/-- The hypotheses are met, and the counter counts. -/
example : ∃ K, ∀ idx b fuel, Roomy Target.debug64 b → msgCost (Example.ctx Target.debug64) fuel idx b (from_bytes b) ≤ K * (b.length + 1) := by
  obtain ⟨K, h⟩ := C111_linear_partial (Example.ctx Target.debug64) rfl (Example.resolved _)
  exact ⟨K, fun idx b fuel hR => (h idx b fuel hR).1⟩

example : ∃ K, ∀ b fuel, Roomy Target.debug64 b → (fromReader (Example.ctx Target.debug64) fuel [0] b (from_bytes b)).1 ≠ .panic →
    msgCost (Example.ctx Target.debug64).unchecked fuel [0] b (from_bytes b) ≤ K * (b.length + 1) := by
  obtain ⟨K, h⟩ := C111_release_partial (Example.ctx Target.debug64) rfl (Example.resolved _)
  exact ⟨K, fun b fuel hR => h [0] b fuel hR⟩

/-- 11 for the default value, 17 for the field of three bytes, 14 for the unknown one, 1 for the end. -/
example : msgCost (Example.ctx Target.debug64) 30 [0] timed (from_bytes timed) = 43 := by rfl

end Gen
end QP
