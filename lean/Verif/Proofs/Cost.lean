import Verif.Model.Cost
import Verif.Proofs.Weight
set_option linter.unusedVariables false
/-! The work of decoding is paid for with bytes of the input. -/

namespace QP
open Spec BytesReader

section
variable {T : Target} {α β : Type} {K L : Nat}

theorem behind_le (b : Bytes) (r : BytesReader) : behind b r ≤ b.length := Nat.min_le_right _ _

/-- `K` per byte passed pays for the work of a read that succeeds; if it fails, `K` for every byte left, and `L`. -/
def Costs (T : Target) (K L : Nat) {α : Type} (p : Bytes → RM α) (cost : Bytes → BytesReader → Nat) : Prop :=
  ∀ b r, Roomy T b → InRange b r →
    (∀ a r', p b r = (.ok a, r') → cost b r + K * behind b r ≤ K * behind b r') ∧ cost b r + K * behind b r ≤ L + K * b.length

/-- The same for the body of a nested read; `c` is paid before. -/
def CostsEntry (T : Target) (K c L : Nat) {α : Type} (p : Bytes → RM α) (cost : Bytes → BytesReader → Nat) : Prop :=
  ∀ b r, Roomy T b → InRange b r → r.start ≤ r.fin →
    (∀ a r', p b r = (.ok a, r') → cost b r + K * behind b r ≤ c + K * min r'.fin b.length) ∧
    cost b r + K * behind b r ≤ L + K * b.length

/-- A read that advances pays for `x ≤ K`. -/
theorem Costs.adv {p : Bytes → RM α} (h : Adv T p) {x : Nat} (hK : x ≤ K) (hL : x ≤ L) : Costs T K L p (fun _ _ => x) := by
  intro b r hR hr
  try dsimp only
  have h0 := Nat.mul_le_mul_left K (behind_le b r)
  refine ⟨fun a r' he => ?_, by omega⟩
  have h1 := h b r a r' hR hr he
  have : behind b r + 1 ≤ behind b r' := by unfold behind; omega
  have := Nat.mul_le_mul_left K this
  rw [Nat.mul_add, Nat.mul_one] at this
  omega

/-- What a nested read costs, and `x` more. -/
theorem Costs.len {c x : Nat} {p : Bytes → RM α} {cost : Bytes → BytesReader → Nat} (hp : CostsEntry T K c (L + K - x - 1) p cost)
    (hK : x + 1 + c ≤ K) (hL : x + 1 ≤ L) :
    Costs T K L (fun bs => BytesReader.read_len_varint T bs (p bs)) (fun b r => x + lenCost T b (cost b) r) := by
  intro b r hR hr
  try dsimp only
  have h0 := Nat.mul_le_mul_left K (behind_le b r)
  unfold lenCost
  rcases h1 : read_varint32 b r with ⟨o, r1⟩
  cases o with
  | ok v =>
    have hin := read_varint32_in h1
    have hlt := v.isLt
    have hR' := hR
    unfold Roomy at hR'
    have hadd := usizeAdd_ok (T := T) (a := r1.start) (b := v.toNat) (by omega)
    simp only [hadd]
    have hpay : behind b r + 1 ≤ behind b r1 := by
      have := Adv.read_varint32 (T := T) b r v r1 hR hr h1
      unfold behind; omega
    have hpay := Nat.mul_le_mul_left K hpay
    rw [Nat.mul_add, Nat.mul_one] at hpay
    obtain ⟨k1, k2⟩ := hp b ⟨r1.start, r1.start + v.toNat⟩ hR (by unfold InRange; simp only; omega) (by simp only; omega)
    have e1 : behind b ⟨r1.start, r1.start + v.toNat⟩ = behind b r1 := rfl
    rw [e1] at k1 k2
    refine ⟨fun a r' he => ?_, by omega⟩
    unfold read_len_varint at he
    rw [SM.bind_run, h1] at he
    simp only [read_len, SM.bind_run, SM.get_run, SM.lift_run, hadd, SM.set_run] at he
    rcases hq : p b ⟨r1.start, r1.start + v.toNat⟩ with ⟨o, r2⟩
    rw [hq] at he
    cases o with
    | ok a' =>
      simp only [SM.pure_run, Prod.mk.injEq, Out.ok.injEq] at he
      obtain ⟨rfl, rfl⟩ := he
      have hc := k1 a' r2 hq
      have e2 : behind b ⟨r2.fin, r1.fin⟩ = min r2.fin b.length := rfl
      rw [e2]
      omega
    | _ => simp at he
  | _ =>
    refine ⟨fun a r' he => ?_, by simp only; omega⟩
    unfold read_len_varint at he
    rw [SM.bind_run, h1] at he
    simp at he

theorem Costs.map {p : Bytes → RM α} {cost : Bytes → BytesReader → Nat} (h : Costs T K L p cost) (f : Bytes → α → β) :
    Costs T K L (fun bs => do let a ← p bs; Pure.pure (f bs a)) cost := by
  intro b r hR hr
  try dsimp only
  obtain ⟨h1, h2⟩ := h b r hR hr
  refine ⟨fun a r' he => ?_, h2⟩
  obtain ⟨a', r1, k1, k2⟩ := SM.bind_ok_inv he
  simp only [SM.pure_run, Prod.mk.injEq, Out.ok.injEq] at k2
  obtain ⟨rfl, rfl⟩ := k2
  exact h1 _ _ k1

theorem CostsEntry.map {c : Nat} {p : Bytes → RM α} {cost : Bytes → BytesReader → Nat} (h : CostsEntry T K c L p cost) (f : α → β) :
    CostsEntry T K c L (fun bs => do let a ← p bs; Pure.pure (f a)) cost := by
  intro b r hR hr hle
  try dsimp only
  obtain ⟨h1, h2⟩ := h b r hR hr hle
  refine ⟨fun a r' he => ?_, h2⟩
  obtain ⟨a', r1, k1, k2⟩ := SM.bind_ok_inv he
  simp only [SM.pure_run, Prod.mk.injEq, Out.ok.injEq] at k2
  obtain ⟨rfl, rfl⟩ := k2
  exact h1 _ _ k1

theorem Costs.mono {p : Bytes → RM α} {cost cost' : Bytes → BytesReader → Nat} {L' : Nat} (h : Costs T K L p cost)
    (hc : ∀ b r, cost' b r ≤ cost b r) (hL : L ≤ L') : Costs T K L' p cost' := by
  intro b r hR hr
  try dsimp only
  obtain ⟨h1, h2⟩ := h b r hR hr
  have := hc b r
  exact ⟨fun a r' he => by have := h1 a r' he; omega, by omega⟩

theorem CostsEntry.mono {c c' : Nat} {p : Bytes → RM α} {cost cost' : Bytes → BytesReader → Nat} {L' : Nat} (h : CostsEntry T K c L p cost)
    (hx : c ≤ c') (hc : ∀ b r, cost' b r ≤ cost b r) (hL : L ≤ L') : CostsEntry T K c' L' p cost' := by
  intro b r hR hr hle
  try dsimp only
  obtain ⟨h1, h2⟩ := h b r hR hr hle
  have := hc b r
  exact ⟨fun a r' he => by have := h1 a r' he; omega, by omega⟩

/-- A loop: an iteration pays for itself. -/
theorem CostsEntry.loop {A : Type} {step : Bytes → A → RM A} {cost : Bytes → A → BytesReader → Nat} (hg : ∀ a, Good T (fun b => step b a))
    (hs : ∀ a, Costs T K L (fun b => step b a) (fun b r => 1 + cost b a r)) (hL : 1 ≤ L) (f : Nat) (acc : A) :
    CostsEntry T K 1 L (fun b => whileNotEof (step b) f acc) (fun b r => loopCost (step b) (cost b) f acc r) := by
  suffices main : ∀ b r, Roomy T b → InRange b r →
      (∀ a r', whileNotEof (step b) f acc r = (.ok a, r') →
        loopCost (step b) (cost b) f acc r + K * behind b r ≤ 1 + K * min r'.fin b.length) ∧
      loopCost (step b) (cost b) f acc r + K * behind b r ≤ L + K * b.length from fun b r hR hr _ => main b r hR hr
  induction f generalizing acc with
  | zero =>
    intro b r _ _
    have h0 := Nat.mul_le_mul_left K (behind_le b r)
    refine ⟨fun a r' h => ?_, by simp only [loopCost]; omega⟩
    simp [whileNotEof, SM.lift_run] at h
  | succ n ih =>
    intro b r hR hr
    have h0 := Nat.mul_le_mul_left K (behind_le b r)
    rw [whileNotEof, loopCost]
    simp only [SM.bind_run, SM.get_run]
    by_cases he : r.is_eof = true
    · rw [if_pos he, if_pos he]
      refine ⟨fun a r' h => ?_, by omega⟩
      simp only [SM.pure_run, Prod.mk.injEq, Out.ok.injEq] at h
      obtain ⟨rfl, rfl⟩ := h
      have : r.start = r.fin := by simpa [is_eof] using he
      unfold behind
      rw [this]
      exact Nat.le_refl _
    · rw [if_neg he, if_neg he]
      obtain ⟨s1, s2⟩ := hs acc b r hR hr
      rw [SM.bind_run]
      rcases hst : step b acc r with ⟨o, r1⟩
      cases o with
      | ok x =>
        simp only
        obtain ⟨_, g2, _⟩ := (hg acc).orderly b r hR hr _ _ hst
        have hc := s1 x r1 hst
        obtain ⟨i1, i2⟩ := ih x b r1 hR g2
        simp only at hc
        exact ⟨fun a r' h => by have := i1 a r' h; omega, by omega⟩
      | _ =>
        simp only
        refine ⟨fun a r' h => ?_, ?_⟩
        · simp at h
        · simp only at s2; omega

end
end QP

namespace QP.Gen
open QP.Pbrs Spec BytesReader

section
variable {C : Ctx} {rd : MessageIndex → Bytes → RM RVal} {rdc : MessageIndex → Bytes → BytesReader → Nat} {K W L x : Nat}

theorem costs_slice {p : Bytes → RM Bytes} (hK : 1 ≤ K) (hp : ∀ b r y r', p b r = (.ok y, r') → r' = r ∧ getRange b r.start r.fin = some y) :
    CostsEntry C.T K 0 L p (fun b r => ((getRange b r.start r.fin).getD []).length) := by
  intro b r hR hr hle
  dsimp only
  have key : ((getRange b r.start r.fin).getD []).length + K * behind b r ≤ K * b.length := by
    have h0 := Nat.mul_le_mul_left K (behind_le b r)
    cases hg : getRange b r.start r.fin with
    | none => simpa using h0
    | some y =>
      obtain ⟨g1, g2, g3⟩ := getRange_length hg
      have : behind b r + y.length ≤ b.length := by unfold behind; omega
      have := Nat.mul_le_mul_left K this
      rw [Nat.mul_add] at this
      have : y.length ≤ K * y.length := Nat.le_mul_of_pos_left _ (by omega)
      simp only [Option.getD_some]
      omega
  refine ⟨fun a r' he => ?_, by omega⟩
  obtain ⟨rfl, hg⟩ := hp b r a r' he
  rw [hg]
  obtain ⟨g1, g2, g3⟩ := getRange_length hg
  have : behind b r' + a.length ≤ min r'.fin b.length := by unfold behind; omega
  have := Nat.mul_le_mul_left K this
  rw [Nat.mul_add] at this
  have : a.length ≤ K * a.length := Nat.le_mul_of_pos_left _ (by omega)
  simp only [Option.getD_some]
  omega

theorem costs_readTyp (hg : ∀ m, GoodEntry C.T (rd m)) (hK : x + W + 2 ≤ K) (hL : x + 1 ≤ L)
    (hrd : ∀ m, CostsEntry C.T K (W + 1) (W + L) (rd m) (rdc m)) (t : FieldType) :
    Costs C.T K L (readTyp C rd t) (fun b r => x + typCost C rdc t b r) := by
  have adv := adv_readTyp (C := C) hg t
  have hself : ∀ b r y r', getSelf b r = (.ok y, r') → r' = r ∧ getRange b r.start r.fin = some y := by
    intro b r x r' h
    simp only [getSelf, SM.bind_run, SM.get_run, SM.okOr_run] at h
    cases hg : getRange b r.start r.fin with
    | none => simp only [hg, Prod.mk.injEq] at h; simp at h
    | some y =>
      simp only [hg, Prod.mk.injEq, Out.ok.injEq] at h
      obtain ⟨rfl, rfl⟩ := h
      exact ⟨rfl, rfl⟩
  have hstr : ∀ b r y r', (do let x ← getSelf b; if utf8Ok x then pure x else SM.throw .Utf8 : RM Bytes) r = (.ok y, r') →
      r' = r ∧ getRange b r.start r.fin = some y := by
    intro b r x r' h
    obtain ⟨y, r1, h1, h2⟩ := SM.bind_ok_inv h
    obtain ⟨rfl, h3⟩ := hself b r y r1 h1
    split at h2
    · simp only [SM.pure_run, Prod.mk.injEq, Out.ok.injEq] at h2
      obtain ⟨rfl, rfl⟩ := h2
      exact ⟨rfl, h3⟩
    · simp [SM.throw_run] at h2
  have str : ∀ {p : Bytes → RM Bytes}, (∀ b r y r', p b r = (.ok y, r') → r' = r ∧ getRange b r.start r.fin = some y) →
      Costs C.T K L (fun b => do let x ← BytesReader.read_len_varint C.T b (p b); pure (RVal.bytes x))
        (fun b r => x + lenCost C.T b (fun r => ((getRange b r.start r.fin).getD []).length) r) := fun hp =>
    Costs.map (Costs.len (T := C.T) (K := K) (L := L) (c := 0) (x := x) (costs_slice (by omega) hp) (by omega) hL) (fun _ => RVal.bytes)
  have one : Costs C.T K L (readTyp C rd t) (fun _ _ => x + 1) := Costs.adv adv (by omega) hL
  cases t
  case stringCow => exact str hstr
  case string_ => exact str hstr
  case bytesCow => exact str hself
  case bytes_ => exact str hself
  case message m =>
    exact Costs.len (T := C.T) (K := K) (L := L) (c := W + 1) (x := x) ((hrd m).mono (Nat.le_refl _) (fun _ _ => Nat.le_refl _) (by omega))
      (by omega) hL
  all_goals exact one

theorem costs_armRead (hT : C.T.overflowChecks = true) (hg : ∀ m, GoodEntry C.T (rd m)) (hK : 3 * W + 6 ≤ K) (hL : 2 * W + 6 ≤ L)
    (hrd : ∀ m, CostsEntry C.T K (W + 1) (W + L) (rd m) (rdc m)) (fuel : Nat) (a : Arm)
    (ha : ∀ k v, a.field.typ = .map k v → (typDefault C k).weight ≤ W ∧ (typDefault C v).weight ≤ W) :
    Costs C.T K L (armRead C rd fuel a) (armCost C rd rdc fuel a) := by
  have ht : ∀ x, x ≤ 2 → ∀ t, Costs C.T K L (readTyp C rd t) (fun b r => x + typCost C rdc t b r) := fun x hx t =>
    costs_readTyp hg (by omega) (by omega) hrd t
  have ht0 : ∀ t, Costs C.T K L (readTyp C rd t) (fun b r => typCost C rdc t b r) := fun t =>
    (ht 0 (by omega) t).mono (fun _ _ => by omega) (Nat.le_refl _)
  have gt := good_readTyp hT hg
  have pf : ∀ {α : Type} (M : MemTy α), Costs C.T K L (BytesReader.read_packed_fixed C.T M) (fixedCost C.T M) := by
    intro α M b r hR hr
    have h0 := Nat.mul_le_mul_left K (behind_le b r)
    unfold fixedCost
    rcases hp : read_packed_fixed C.T M b r with ⟨o, r1⟩
    cases o with
    | ok p =>
      have := Pays.read_packed_fixed (T := C.T) (K := K) (c := 0) hT M (by omega) b r p r1 hR hr hp
      have h1 := Nat.mul_le_mul_left K (behind_le b r1)
      simp only at this ⊢
      refine ⟨fun p r' h => ?_, by omega⟩
      simp only [Prod.mk.injEq, Out.ok.injEq] at h
      obtain ⟨rfl, rfl⟩ := h
      omega
    | _ =>
      simp only
      exact ⟨fun p r' h => by simp at h, by omega⟩
  unfold armRead armCost
  by_cases h1 : (a.choice.isSome || a.field.boxed) = true
  · simp only [if_pos h1]; exact ht0 _
  simp only [if_neg h1]
  cases a.field.frequency.generated
  · exact ht0 _
  · by_cases h2 : a.field.isPacked = true
    · simp only [if_pos h2]
      by_cases h3 : a.field.typ.isFixedSize = true
      · simp only [if_pos h3]
        by_cases h4 : a.field.typ.wireTypeNumNonPacked = 1
        · simp only [if_pos h4]
          exact Costs.map (pf (MemTy.int C.T 8)) (fun _ => RVal.pf64)
        · simp only [if_neg h4]
          exact Costs.map (pf (MemTy.int C.T 4)) (fun _ => RVal.pf32)
      · simp only [if_neg h3]
        refine Costs.map ?_ (fun _ => RVal.vec)
        refine (Costs.len (T := C.T) (K := K) (L := L) (c := 1) (x := 0) (cost := fun b => loopCost (fun (acc : List RVal) => do
            let m ← readTyp C rd a.field.typ b; pure (m :: acc)) (fun _ => typCost C rdc a.field.typ b) fuel [])
          (CostsEntry.map ?_ List.reverse) (by omega) (by omega)).mono (fun _ _ => by omega) (Nat.le_refl _)
        have gs : ∀ acc : List RVal, Good C.T (fun b => (do let m ← readTyp C rd a.field.typ b; pure (m :: acc))) :=
          fun acc => Good.bind (gt _) (fun m => Good.pure _)
        exact (CostsEntry.loop (T := C.T) (K := K) (L := L) (step := fun b (acc : List RVal) => (do let m ← readTyp C rd a.field.typ b; pure (m :: acc)))
          (cost := fun b _ => typCost C rdc a.field.typ b) gs (fun acc => Costs.map (ht 1 (by omega) _) _) (by omega) fuel []).mono (Nat.le_refl _)
          (fun _ _ => Nat.le_refl _) (by omega)
    · simp only [if_neg h2]; exact ht0 _
  · cases hty : a.field.typ
    case map k v =>
      refine Costs.map ?_ (fun _ kv => RVal.map [kv])
      obtain ⟨hk, hv⟩ := ha k v hty
      have gs : ∀ kv : RVal × RVal, Good C.T (fun b => (do
          let t ← read_u8 b
          let n := t >>> 3
          if n = 1#8 then do
            let k ← readTyp C rd k b
            pure (k, kv.2)
          else if n = 2#8 then do
            let v ← readTyp C rd v b
            pure (kv.1, v)
          else SM.throw (.Map n))) := fun kv =>
        Good.bind Good.read_u8 (fun t => Good.ite (Good.bind (gt k) (fun k => Good.pure (k, kv.2)))
          (Good.ite (Good.bind (gt v) (fun v => Good.pure (kv.1, v))) (Good.throw _)))
      have hs : ∀ kv : RVal × RVal, Costs C.T K L (fun b => (do
          let t ← read_u8 b
          let n := t >>> 3
          if n = 1#8 then do
            let k ← readTyp C rd k b
            pure (k, kv.2)
          else if n = 2#8 then do
            let v ← readTyp C rd v b
            pure (kv.1, v)
          else SM.throw (.Map n))) (fun b r => 1 + entryCost C rdc k v b r) := by
        intro kv b r hR hr
        have h0 := Nat.mul_le_mul_left K (behind_le b r)
        unfold entryCost
        dsimp only
        rcases hu : read_u8 b r with ⟨o, r1⟩
        cases o with
        | ok t =>
          obtain ⟨-, g2, -⟩ := Good.read_u8.orderly b r hR hr _ _ hu
          have h1 := Adv.read_u8 (T := C.T) b r t r1 hR hr hu
          have : behind b r + 1 ≤ behind b r1 := by unfold behind; omega
          have := Nat.mul_le_mul_left K this
          rw [Nat.mul_add, Nat.mul_one] at this
          simp only [hu]
          have e := Nat.mul_le_mul_left K (behind_le b r1)
          by_cases hn : t >>> 3 = 1#8
          · obtain ⟨t1, t2⟩ := ht0 k b r1 hR g2
            dsimp only at t1 t2
            simp only [if_pos hn]
            refine ⟨fun a r' h => ?_, by omega⟩
            rw [SM.bind_run, hu] at h
            simp only [if_pos hn] at h
            obtain ⟨y, r2, k1, k2⟩ := SM.bind_ok_inv h
            simp only [SM.pure_run, Prod.mk.injEq, Out.ok.injEq] at k2
            obtain ⟨rfl, rfl⟩ := k2
            have := t1 y r2 k1
            omega
          · by_cases hn2 : t >>> 3 = 2#8
            · obtain ⟨t1, t2⟩ := ht0 v b r1 hR g2
              dsimp only at t1 t2
              simp only [if_neg hn, if_pos hn2]
              refine ⟨fun a r' h => ?_, by omega⟩
              rw [SM.bind_run, hu] at h
              simp only [if_neg hn, if_pos hn2] at h
              obtain ⟨y, r2, k1, k2⟩ := SM.bind_ok_inv h
              simp only [SM.pure_run, Prod.mk.injEq, Out.ok.injEq] at k2
              obtain ⟨rfl, rfl⟩ := k2
              have := t1 y r2 k1
              omega
            · simp only [if_neg hn, if_neg hn2]
              refine ⟨fun a r' h => ?_, by omega⟩
              rw [SM.bind_run, hu] at h
              simp only [if_neg hn, if_neg hn2, SM.throw_run] at h
              simp at h
        | _ =>
          simp only [hu]
          refine ⟨fun a r' h => ?_, by omega⟩
          rw [SM.bind_run, hu] at h
          simp at h
      refine (Costs.len (T := C.T) (K := K) (L := L) (c := 1) (x := 1 + (typDefault C k).weight + (typDefault C v).weight)
        (CostsEntry.mono (CostsEntry.loop (T := C.T) (K := K) (L := L) gs hs (by omega) fuel (typDefault C k, typDefault C v)) (Nat.le_refl _)
          (fun _ _ => Nat.le_refl _) (by omega)) (by omega) (by omega))
    all_goals
      intro b r hR hr
      have h0 := Nat.mul_le_mul_left K (behind_le b r)
      refine ⟨fun a r' h => ?_, by simp only; omega⟩
      simp [SM.lift_run] at h

theorem costs_msgStep (hT : C.T.overflowChecks = true) (hg : ∀ m, GoodEntry C.T (rd m)) {A : Nat} (hK : 3 * W + 6 + A ≤ K) (hL : 2 * W + 6 + A ≤ L)
    (hrd : ∀ m, CostsEntry C.T K (W + 1) (W + L) (rd m) (rdc m)) (fuel : Nat) (as : List Arm) (hA : as.length ≤ A)
    (ha : ∀ a ∈ as, ∀ k v, a.field.typ = .map k v → (typDefault C k).weight ≤ W ∧ (typDefault C v).weight ≤ W) (slots : List RVal) :
    Costs C.T K L (fun b => msgStep C rd fuel as b slots) (fun b r => 1 + stepCost C rd rdc fuel as b r) := by
  intro b r hR hr
  have h0 := Nat.mul_le_mul_left K (behind_le b r)
  unfold msgStep stepCost
  dsimp only
  rcases hu : next_tag b r with ⟨o, r1⟩
  cases o with
  | ok t =>
    obtain ⟨-, g2, -⟩ := Good.read_varint32.orderly b r hR hr _ _ hu
    have h1 := Adv.read_varint32 (T := C.T) b r t r1 hR hr hu
    have : behind b r + 1 ≤ behind b r1 := by unfold behind; omega
    have := Nat.mul_le_mul_left K this
    rw [Nat.mul_add, Nat.mul_one] at this
    have e := Nat.mul_le_mul_left K (behind_le b r1)
    simp only
    cases hf : as.find? (fun a => a.field.tag == t) with
    | none =>
      simp only
      refine ⟨fun a r' h => ?_, by omega⟩
      rw [SM.bind_run, hu] at h
      simp only [hf] at h
      obtain ⟨y, r2, k1, k2⟩ := SM.bind_ok_inv h
      simp only [SM.pure_run, Prod.mk.injEq, Out.ok.injEq] at k2
      obtain ⟨rfl, rfl⟩ := k2
      have h2 := ((Good.read_unknown hT t).orderly b r1 hR g2 _ _ k1).1
      have : behind b r1 ≤ behind b r2 := by unfold behind; omega
      have := Nat.mul_le_mul_left K this
      omega
    | some a =>
      simp only
      obtain ⟨t1, t2⟩ := costs_armRead hT hg (by omega) (by omega) hrd fuel a (ha a (List.mem_of_find?_eq_some hf)) b r1 hR g2
      refine ⟨fun a r' h => ?_, by omega⟩
      rw [SM.bind_run, hu] at h
      simp only [hf] at h
      obtain ⟨y, r2, k1, k2⟩ := SM.bind_ok_inv h
      simp only [SM.pure_run, Prod.mk.injEq, Out.ok.injEq] at k2
      obtain ⟨rfl, rfl⟩ := k2
      have := t1 y r2 k1
      omega
  | _ =>
    simp only
    refine ⟨fun a r' h => ?_, by omega⟩
    rw [SM.bind_run, hu] at h
    simp at h

end

theorem costs_fromReader {C : Ctx} {K L W A : Nat} (hT : C.T.overflowChecks = true) (hW : 1 ≤ W) (hC : Resolved C)
    (hd : ∀ idx m, C.D.getMessage idx = some m → (C.dflt idx).weight ≤ W) (hA : ∀ idx m, C.D.getMessage idx = some m → (arms C.cfg m).length ≤ A)
    (hK : 3 * W + 6 + A ≤ K) (hL : 2 * W + 6 + A ≤ L) (n : Nat) :
    ∀ idx : MessageIndex, CostsEntry C.T K (W + 1) (W + L) (fromReader C n idx) (msgCost C n idx) := by
  induction n with
  | zero =>
    intro idx b r hR hr hle
    have h0 := Nat.mul_le_mul_left K (behind_le b r)
    refine ⟨fun a r' h => ?_, by simp only [msgCost]; omega⟩
    simp [fromReader, SM.lift_run] at h
  | succ n ih =>
    intro idx
    cases h : C.D.getMessage idx with
    | none =>
      rw [fromReader_none n h]
      intro b r hR hr hle
      have h0 := Nat.mul_le_mul_left K (behind_le b r)
      refine ⟨fun a r' h => ?_, by simp only [msgCost, h]; omega⟩
      simp [SM.lift_run] at h
    | some m =>
      have h1 := hd idx m h
      cases hu : m.isUnit
      · rw [fromReader_msg n h hu]
        have hg := goodEntry_fromReader (C := C) hT n
        have hma : ∀ a ∈ arms C.cfg m, ∀ k v, a.field.typ = .map k v → (typDefault C k).weight ≤ W ∧ (typDefault C v).weight ≤ W := by
          intro a ha k v hty
          have h1 := (hC idx m h a ha).1
          rw [hty] at h1
          exact ⟨weight_typDefault hW hd h1.1, weight_typDefault hW hd h1.2.1⟩
        have hl := CostsEntry.loop (T := C.T) (K := K) (L := L) (step := fun b => msgStep C (fromReader C n) (n + 1) (arms C.cfg m) b)
          (cost := fun b _ => stepCost C (fromReader C n) (msgCost C n) (n + 1) (arms C.cfg m) b) (fun s => good_msgStep hT hg (n + 1) _ s)
          (fun s => costs_msgStep hT hg hK hL ih (n + 1) _ (hA idx m h) hma s) (by omega) (n + 1) (C.dflt idx).slots
        intro b r hR hr hle
        obtain ⟨l1, l2⟩ := CostsEntry.map hl RVal.struct b r hR hr hle
        dsimp only at l1 l2
        simp only [msgCost, h, hu, Bool.false_eq_true, if_false]
        exact ⟨fun a r' he => by have := l1 a r' he; omega, by omega⟩
      · rw [fromReader_unit n h hu]
        intro b r hR hr hle
        have h0 := Nat.mul_le_mul_left K (behind_le b r)
        simp only [msgCost, h, hu, if_true]
        refine ⟨fun a r' he => ?_, by omega⟩
        simp only [read_to_end, SM.bind_run, SM.get_run, SM.set_run, SM.pure_run, Prod.mk.injEq, Out.ok.injEq] at he
        obtain ⟨rfl, rfl⟩ := he
        have : behind b r ≤ min r.fin b.length := by unfold behind; omega
        have := Nat.mul_le_mul_left K this
        simp only
        omega

end QP.Gen
