import Verif.Proofs.Cost
set_option linter.unusedVariables false
/-! The counter of Model/Cost.lean counts everything that is built. -/

namespace QP
open Spec BytesReader

section
variable {T : Target} {α β : Type}

/-- What is built weighs no more than `x` and the work. -/
def Counts {α : Type} (p : RM α) (x : Nat) (w : α → Nat) (cost : BytesReader → Nat) : Prop :=
  ∀ r a r', p r = (.ok a, r') → w a ≤ x + cost r

theorem Counts.lift {o : Out α} (h : ∀ a, o ≠ .ok a) (x : Nat) (w : α → Nat) (cost : BytesReader → Nat) : Counts (SM.lift o : RM α) x w cost := by
  intro r a r' he
  simp only [SM.lift_run, Prod.mk.injEq] at he
  exact absurd he.1 (h a)

theorem Counts.mono {p : RM α} {x y : Nat} {w : α → Nat} {cost : BytesReader → Nat} (h : Counts p x w cost) (hx : x ≤ y) : Counts p y w cost :=
  fun r a r' he => Nat.le_trans (h r a r' he) (Nat.add_le_add_right hx _)

theorem Counts.map {p : RM α} {x y : Nat} {w : α → Nat} {w' : β → Nat} {cost : BytesReader → Nat} (h : Counts p x w cost) (f : α → β)
    (hf : ∀ a, w' (f a) + x ≤ w a + y) : Counts (do let a ← p; pure (f a)) y w' cost := by
  intro r a r' he
  obtain ⟨y, r1, h1, h2⟩ := SM.bind_ok_inv he
  simp only [SM.pure_run, Prod.mk.injEq, Out.ok.injEq] at h2
  obtain ⟨rfl, rfl⟩ := h2
  have := h r y r1 h1
  have := hf y
  omega

theorem Counts.loop {A : Type} {step : A → RM A} {w : A → Nat} {cost : A → BytesReader → Nat} (h : ∀ a, Counts (step a) (w a) w (cost a)) :
    ∀ f acc, Counts (whileNotEof step f acc) (w acc) w (loopCost step cost f acc)
  | 0, acc => Counts.lift (by simp) _ _ _
  | f + 1, acc => by
    intro r a r' he
    simp only [whileNotEof, SM.bind_run, SM.get_run] at he
    by_cases hh : r.is_eof = true
    · rw [if_pos hh] at he
      simp only [SM.pure_run, Prod.mk.injEq, Out.ok.injEq] at he
      obtain ⟨rfl, rfl⟩ := he
      omega
    · rw [if_neg hh] at he
      obtain ⟨y, r1, h1, h2⟩ := SM.bind_ok_inv (f := fun acc => whileNotEof step f acc) he
      have k1 := h acc r y r1 h1
      have k2 := Counts.loop h f y r1 a r' h2
      have e : loopCost step cost (f + 1) acc r = 1 + cost acc r + loopCost step cost f y r1 := by
        simp only [loopCost, if_neg hh, h1]
      rw [e]
      omega

theorem Counts.len {p : RM α} {x : Nat} {w : α → Nat} {cost : BytesReader → Nat} (h : Counts p (x + 1) w cost) (b : Bytes) :
    Counts (read_len_varint T b p) x w (lenCost T b cost) := by
  intro r a r' he
  obtain ⟨v, r1, h1, h2⟩ := SM.bind_ok_inv he
  unfold lenCost
  simp only [h1]
  simp only [read_len, SM.bind_run, SM.get_run, SM.lift_run] at h2
  cases hu : T.usizeAdd r1.start v.toNat with
  | ok fin =>
    simp only [hu, SM.set_run] at h2 ⊢
    rcases hq : p ⟨r1.start, fin⟩ with ⟨o, r2⟩
    rw [hq] at h2
    cases o with
    | ok a' =>
      simp only [SM.pure_run, Prod.mk.injEq, Out.ok.injEq] at h2
      obtain ⟨rfl, rfl⟩ := h2
      have := h _ _ _ hq
      omega
    | _ => simp at h2
  | _ => simp [hu] at h2

end
end QP

namespace QP.Gen
open QP.Pbrs Spec BytesReader

section
variable {C : Ctx} {rd : MessageIndex → Bytes → RM RVal} {rdc : MessageIndex → Bytes → BytesReader → Nat}

theorem counts_readTyp (h : ∀ m b, Counts (rd m b) 0 RVal.weight (rdc m b)) (t : FieldType) (b : Bytes) :
    Counts (readTyp C rd t b) 0 RVal.weight (typCost C rdc t b) := by
  have hself : Counts (getSelf b) 0 List.length (fun r => ((getRange b r.start r.fin).getD []).length) := by
    intro r x r' h
    simp only [getSelf, SM.bind_run, SM.get_run, SM.okOr_run] at h
    cases hg : getRange b r.start r.fin with
    | none => simp only [hg, Prod.mk.injEq] at h; simp at h
    | some y =>
      simp only [hg, Prod.mk.injEq, Out.ok.injEq] at h
      obtain ⟨rfl, rfl⟩ := h
      show y.length ≤ 0 + ((getRange b r.start r.fin).getD []).length
      rw [hg]
      exact Nat.le_of_eq (Nat.zero_add _).symm
  have hstr : Counts (do let x ← getSelf b; if utf8Ok x then pure x else SM.throw .Utf8 : RM Bytes) 0 List.length
      (fun r => ((getRange b r.start r.fin).getD []).length) := by
    intro r x r' h
    obtain ⟨y, r1, h1, h2⟩ := SM.bind_ok_inv h
    have h3 := hself r y r1 h1
    split at h2
    · simp only [SM.pure_run, Prod.mk.injEq, Out.ok.injEq] at h2
      obtain ⟨rfl, rfl⟩ := h2
      exact h3
    · simp [SM.throw_run] at h2
  have str : ∀ {p : RM Bytes}, Counts p 0 List.length (fun r => ((getRange b r.start r.fin).getD []).length) →
      Counts (do let x ← BytesReader.read_len_varint C.T b p; pure (RVal.bytes x)) 0 RVal.weight
        (lenCost C.T b (fun r => ((getRange b r.start r.fin).getD []).length)) := by
    intro p hp
    refine Counts.map (x := 0) (w := fun x => x.length + 1) (Counts.len (x := 0) (fun r a r' he => ?_) b) RVal.bytes (fun a => ?_)
    · have := hp r a r' he
      dsimp only at this ⊢
      omega
    · simp only [RVal.weight]; omega
  have one : ∀ {α : Type} {p : RM α} {f : α → RVal}, (∀ x, (f x).weight = 1) →
      Counts (do let x ← p; pure (f x)) 0 RVal.weight (fun _ => 1) := by
    intro α p f hf r a r' he
    obtain ⟨y, r1, h1, h2⟩ := SM.bind_ok_inv he
    simp only [SM.pure_run, Prod.mk.injEq, Out.ok.injEq] at h2
    obtain ⟨rfl, rfl⟩ := h2
    rw [hf y]
    exact Nat.le_refl _
  cases t
  case stringCow => exact str hstr
  case string_ => exact str hstr
  case bytesCow => exact str hself
  case bytes_ => exact str hself
  case message m => exact Counts.len (fun r a r' he => by have := h m b r a r' he; omega) b
  case messageOrEnum => exact Counts.lift (by simp) _ _ _
  case map => exact Counts.lift (by simp) _ _ _
  all_goals exact one (fun _ => rfl)

theorem counts_armRead (h : ∀ m b, Counts (rd m b) 0 RVal.weight (rdc m b)) (fuel : Nat) (a : Arm) (b : Bytes) :
    Counts (armRead C rd fuel a b) 0 RVal.weight (armCost C rd rdc fuel a b) := by
  have hr := fun t => counts_readTyp (C := C) h t b
  have pf : ∀ {α : Type} (M : MemTy α) (f : PackedFixed α → RVal), (∀ p, (f p).weight = 1 + packedBytes M.size p) →
      Counts (do let p ← read_packed_fixed C.T M b; pure (f p)) 0 RVal.weight (fixedCost C.T M b) := by
    intro α M f hf r v r' he
    obtain ⟨p, r1, h1, h2⟩ := SM.bind_ok_inv he
    simp only [SM.pure_run, Prod.mk.injEq, Out.ok.injEq] at h2
    obtain ⟨rfl, rfl⟩ := h2
    unfold fixedCost
    simp only [h1, hf]
    omega
  unfold armRead armCost
  split
  · exact hr _
  · cases a.field.frequency.generated
    · exact hr _
    · simp only
      split
      · split
        · split
          · exact pf (MemTy.int C.T 8) RVal.pf64 (fun _ => rfl)
          · exact pf (MemTy.int C.T 4) RVal.pf32 (fun _ => rfl)
        · refine Counts.map (x := 0) (w := fun l => 1 + weights l) (Counts.len (x := 0) ?_ b) RVal.vec (fun l => by simp only [RVal.weight]; omega)
          refine Counts.map (x := 1) (w := fun l => 1 + weights l) ?_ List.reverse (fun l => by rw [weights_reverse]; omega)
          refine Counts.loop (w := fun l => 1 + weights l) (fun acc => ?_) fuel []
          exact Counts.map (hr _) _ (fun v => by simp only [weights]; omega)
      · exact hr _
    · cases a.field.typ
      case map k v =>
        simp only
        have hl := Counts.loop (w := fun (kv : RVal × RVal) => 1 + kv.1.weight + kv.2.weight) (step := fun (kv : RVal × RVal) => do
            let t ← read_u8 b
            let n := t >>> 3
            if n = 1#8 then do
              let k ← readTyp C rd k b
              pure (k, kv.2)
            else if n = 2#8 then do
              let v ← readTyp C rd v b
              pure (kv.1, v)
            else SM.throw (.Map n)) (cost := fun _ => entryCost C rdc k v b) (fun kv => by
              intro r kv' r' he
              obtain ⟨t, r1, h1, h2⟩ := SM.bind_ok_inv he
              unfold entryCost
              simp only [h1]
              dsimp only at h2
              split at h2
              · rename_i hc
                obtain ⟨y, r2, k1, k2⟩ := SM.bind_ok_inv h2
                simp only [SM.pure_run, Prod.mk.injEq, Out.ok.injEq] at k2
                obtain ⟨rfl, rfl⟩ := k2
                have := hr k r1 y r2 k1
                rw [if_pos hc]
                dsimp only
                omega
              · rename_i hc
                rw [if_neg hc]
                split at h2
                · rename_i hc
                  obtain ⟨y, r2, k1, k2⟩ := SM.bind_ok_inv h2
                  simp only [SM.pure_run, Prod.mk.injEq, Out.ok.injEq] at k2
                  obtain ⟨rfl, rfl⟩ := k2
                  have := hr v r1 y r2 k1
                  rw [if_pos hc]
                  dsimp only
                  omega
                · simp [SM.throw_run] at h2) fuel (typDefault C k, typDefault C v)
        have hl := Counts.map (Counts.len (T := C.T) (x := 1 + (typDefault C k).weight + (typDefault C v).weight)
          (hl.mono (by dsimp only; omega)) b) (fun kv => RVal.map [kv]) (y := 1 + (typDefault C k).weight + (typDefault C v).weight)
            (w' := RVal.weight) (fun kv => by simp only [RVal.weight, pairWeights]; omega)
        intro r a r' he
        have := hl r a r' he
        dsimp only at this ⊢
        exact Nat.le_trans this (Nat.le_of_eq (Nat.zero_add _).symm)
      all_goals exact Counts.lift (by simp) _ _ _

theorem counts_fromReader (n : Nat) : ∀ idx b, Counts (fromReader C n idx b) 0 RVal.weight (msgCost C n idx b) := by
  induction n with
  | zero => intro idx b; exact Counts.lift (by simp) _ _ _
  | succ n ih =>
    intro idx b
    cases hm : C.D.getMessage idx with
    | none =>
      rw [fromReader_none n hm]
      exact Counts.lift (by simp) _ _ _
    | some m =>
      cases hu : m.isUnit
      · rw [fromReader_msg n hm hu]
        have hl := Counts.loop (step := msgStep C (fromReader C n) (n + 1) (arms C.cfg m) b) (w := fun l => 1 + weights l)
          (cost := fun _ => stepCost C (fromReader C n) (msgCost C n) (n + 1) (arms C.cfg m) b) (fun slots => by
            intro r s r' he
            obtain ⟨t, r1, h1, h2⟩ := SM.bind_ok_inv he
            cases hf : (arms C.cfg m).find? (fun a => a.field.tag == t) with
            | none =>
              simp only [hf] at h2
              obtain ⟨u, r2, k1, k2⟩ := SM.bind_ok_inv h2
              simp only [SM.pure_run, Prod.mk.injEq, Out.ok.injEq] at k2
              obtain ⟨rfl, rfl⟩ := k2
              exact Nat.le_add_right _ _
            | some a =>
              simp only [hf] at h2
              obtain ⟨v, r2, k1, k2⟩ := SM.bind_ok_inv h2
              simp only [SM.pure_run, Prod.mk.injEq, Out.ok.injEq] at k2
              obtain ⟨rfl, rfl⟩ := k2
              have := counts_armRead ih (n + 1) a b r1 v r2 k1
              have := weights_modify (fun old => weight_armApply a old v) slots a.slot
              have e : stepCost C (fromReader C n) (msgCost C n) (n + 1) (arms C.cfg m) b r
                  = 1 + ((arms C.cfg m).length + armCost C (fromReader C n) (msgCost C n) (n + 1) a b r1) := by
                simp only [stepCost, h1, hf]
              rw [e]
              simp only [setSlot]
              omega) (n + 1) (C.dflt idx).slots
        have hl := Counts.map hl RVal.struct (y := 1 + weights (C.dflt idx).slots) (w' := RVal.weight) (fun l => by simp only [RVal.weight]; omega)
        intro r a r' he
        have := hl r a r' he
        have hd : 1 + weights (C.dflt idx).slots ≤ (C.dflt idx).weight := by
          have := weight_pos (C.dflt idx)
          cases hx : C.dflt idx <;> rw [hx] at this <;> simp only [RVal.slots, RVal.weight, weights] at this ⊢ <;> omega
        simp only [msgCost, hm, hu, Bool.false_eq_true, if_false]
        omega
      · rw [fromReader_unit n hm hu]
        intro r a r' he
        simp only [msgCost, hm, hu, if_true]
        simp only [read_to_end, SM.bind_run, SM.get_run, SM.set_run, SM.pure_run, Prod.mk.injEq, Out.ok.injEq] at he
        obtain ⟨rfl, rfl⟩ := he
        omega

end
end QP.Gen
