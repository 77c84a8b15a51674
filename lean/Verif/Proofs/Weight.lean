import Verif.Spec.Weight
import Verif.Proofs.Fuel
import Verif.Spec.Resolved
/-! What is read is paid for with bytes of the input. -/

set_option linter.unusedVariables false

namespace QP
open Spec BytesReader

section
variable {T : Target} {α β : Type} {K : Nat}

/-- Bytes of the buffer that are behind the reader. -/
def behind (b : Bytes) (r : BytesReader) : Nat := min r.start b.length

/-- With credit `c`, and `K` more for every byte passed, there is credit `w a` after reading `a`. -/
def Pays (T : Target) (K : Nat) {α : Type} (c : Nat) (p : Bytes → RM α) (w : α → Nat) : Prop :=
  ∀ b r a r', Roomy T b → InRange b r → p b r = (.ok a, r') → w a + K * behind b r ≤ c + K * behind b r'

/-- The same for the body of a nested read, which stops at the limit. -/
def PaysEntry (T : Target) (K : Nat) {α : Type} (c : Nat) (p : Bytes → RM α) (w : α → Nat) : Prop :=
  ∀ b r a r', Roomy T b → InRange b r → r.start ≤ r.fin → p b r = (.ok a, r') →
    r'.start = r'.fin ∧ w a + K * behind b r ≤ c + K * behind b r'

theorem Pays.mono {c c' : Nat} {p : Bytes → RM α} {w w' : α → Nat} (h : Pays T K c p w) (hc : c ≤ c') (hw : ∀ a, w' a ≤ w a) :
    Pays T K c' p w' := fun b r a r' hR hr e => by
  have := h b r a r' hR hr e
  have := hw a
  omega

theorem PaysEntry.mono {c c' : Nat} {p : Bytes → RM α} {w w' : α → Nat} (h : PaysEntry T K c p w) (hc : c ≤ c') (hw : ∀ a, w' a ≤ w a) :
    PaysEntry T K c' p w' := fun b r a r' hR hr hle e => by
  have h1 := h b r a r' hR hr hle e
  have := hw a
  exact ⟨h1.1, by omega⟩

theorem Pays.lift {o : Out α} (h : ∀ a, o ≠ .ok a) (c : Nat) (w : α → Nat) : Pays T K c (fun _ => (SM.lift o : RM α)) w := by
  intro b r a r' _ _ he
  simp only [SM.lift_run, Prod.mk.injEq] at he
  exact absurd he.1 (h a)

theorem Pays.throw (e : Error) (c : Nat) (w : α → Nat) : Pays T K c (fun _ => (SM.throw e : RM α)) w := Pays.lift (by simp) c w

theorem Pays.pure (a : α) (w : α → Nat) {c : Nat} (h : w a ≤ c) : Pays T K c (fun _ => (Pure.pure a : RM α)) w := by
  intro b r a' r' _ _ he
  simp only [SM.pure_run, Prod.mk.injEq, Out.ok.injEq] at he
  obtain ⟨rfl, rfl⟩ := he
  omega

theorem Pays.good {p : Bytes → RM α} (h : Good T p) (c : Nat) : Pays T K c p (fun _ => c) := by
  intro b r a r' hR hr e
  have h1 := (h.orderly b r hR hr _ _ e).1
  have : behind b r ≤ behind b r' := by unfold behind; omega
  have := Nat.mul_le_mul_left K this
  show c + _ ≤ _
  omega

theorem Pays.adv {p : Bytes → RM α} (h : Adv T p) (c : Nat) : Pays T K c p (fun _ => c + K) := by
  intro b r a r' hR hr e
  have h1 := h b r a r' hR hr e
  have : behind b r + 1 ≤ behind b r' := by unfold behind; omega
  have := Nat.mul_le_mul_left K this
  rw [Nat.mul_add, Nat.mul_one] at this
  show c + K + _ ≤ _
  omega

theorem Pays.bind {c : Nat} {p : Bytes → RM α} {q : α → Bytes → RM β} {w : α → Nat} {w' : β → Nat} (gp : Good T p) (hp : Pays T K c p w)
    (hq : ∀ a, Pays T K (w a) (q a) w') : Pays T K c (fun bs => do let a ← p bs; q a bs) w' := by
  intro b r x r' hR hr h
  obtain ⟨a, r1, h1, h2⟩ := SM.bind_ok_inv h
  obtain ⟨_, g2, _⟩ := gp.orderly b r hR hr _ _ h1
  have := hp b r a r1 hR hr h1
  have := hq a b r1 x r' hR g2 h2
  omega

theorem Pays.map {c : Nat} {p : Bytes → RM α} {w : α → Nat} {w' : β → Nat} (hp : Pays T K c p w) (f : α → β) (h : ∀ a, w' (f a) ≤ w a) :
    Pays T K c (fun bs => do let a ← p bs; Pure.pure (f a)) w' := by
  intro b r x r' hR hr he
  obtain ⟨a, r1, h1, h2⟩ := SM.bind_ok_inv he
  simp only [SM.pure_run, Prod.mk.injEq, Out.ok.injEq] at h2
  obtain ⟨rfl, rfl⟩ := h2
  have := hp b r a r1 hR hr h1
  have := h a
  omega

theorem PaysEntry.map {c : Nat} {p : Bytes → RM α} {w : α → Nat} {w' : β → Nat} (hp : PaysEntry T K c p w) (f : α → β) (h : ∀ a, w' (f a) ≤ w a) :
    PaysEntry T K c (fun bs => do let a ← p bs; Pure.pure (f a)) w' := by
  intro b r x r' hR hr hle he
  obtain ⟨a, r1, h1, h2⟩ := SM.bind_ok_inv he
  simp only [SM.pure_run, Prod.mk.injEq, Out.ok.injEq] at h2
  obtain ⟨rfl, rfl⟩ := h2
  have := hp b r a r1 hR hr hle h1
  have := h a
  exact ⟨by omega, by omega⟩

theorem Pays.ite {k : Prop} [Decidable k] {c : Nat} {p q : Bytes → RM α} {w : α → Nat} (hp : Pays T K c p w) (hq : Pays T K c q w) :
    Pays T K c (fun bs => if k then p bs else q bs) w := by
  by_cases h : k
  · simp only [if_pos h]; exact hp
  · simp only [if_neg h]; exact hq

theorem PaysEntry.loop {A : Type} {step : Bytes → A → RM A} {w : A → Nat} (hg : ∀ a, Good T (fun b => step b a))
    (hs : ∀ a, Pays T K (w a) (fun b => step b a) w) (f : Nat) (acc : A) : PaysEntry T K (w acc) (fun b => whileNotEof (step b) f acc) w := by
  induction f generalizing acc with
  | zero =>
    intro b r a r' _ _ _ h
    simp [whileNotEof, SM.lift_run] at h
  | succ n ih =>
    have main : ∀ b r a r', Roomy T b → InRange b r → whileNotEof (step b) (n + 1) acc r = (.ok a, r') →
        r'.start = r'.fin ∧ w a + K * behind b r ≤ w acc + K * behind b r' := by
      -- the entry condition is not needed
      clear ih
      induction n generalizing acc with
      | zero =>
        intro b r a r' hR hr h
        simp only [whileNotEof, SM.bind_run, SM.get_run] at h
        by_cases he : r.is_eof = true
        · rw [if_pos he] at h
          simp only [SM.pure_run, Prod.mk.injEq, Out.ok.injEq] at h
          obtain ⟨rfl, rfl⟩ := h
          exact ⟨by simpa [is_eof] using he, Nat.le_refl _⟩
        · rw [if_neg he] at h
          obtain ⟨x, r1, _, h2⟩ := SM.bind_ok_inv (f := fun acc => whileNotEof (step b) 0 acc) h
          simp [whileNotEof, SM.lift_run] at h2
      | succ n ih =>
        intro b r a r' hR hr h
        rw [whileNotEof] at h
        simp only [SM.bind_run, SM.get_run] at h
        by_cases he : r.is_eof = true
        · rw [if_pos he] at h
          simp only [SM.pure_run, Prod.mk.injEq, Out.ok.injEq] at h
          obtain ⟨rfl, rfl⟩ := h
          exact ⟨by simpa [is_eof] using he, Nat.le_refl _⟩
        · rw [if_neg he] at h
          obtain ⟨x, r1, h1, h2⟩ := SM.bind_ok_inv (f := fun acc => whileNotEof (step b) (n + 1) acc) h
          obtain ⟨_, g2, _⟩ := (hg acc).orderly b r hR hr _ _ h1
          have := hs acc b r x r1 hR hr h1
          have := ih x b r1 a r' hR g2 h2
          exact ⟨this.1, by omega⟩
    exact fun b r a r' hR hr _ h => main b r a r' hR hr h

theorem Pays.read_len_varint {c : Nat} {p : Bytes → RM α} {w : α → Nat} (hp : PaysEntry T K (c + K) p w) :
    Pays T K c (fun bs => BytesReader.read_len_varint T bs (p bs)) w := by
  intro b r x r' hR hr h
  obtain ⟨v, r1, h1, h2⟩ := SM.bind_ok_inv h
  have hin := read_varint32_in h1
  have hpay : c + K + K * behind b r ≤ c + K * behind b r1 := Pays.adv (T := T) Adv.read_varint32 c b r v r1 hR hr h1
  have hlt := v.isLt
  have hR' := hR
  unfold Roomy at hR'
  simp only [read_len, SM.bind_run, SM.get_run, SM.lift_run,
    usizeAdd_ok (T := T) (a := r1.start) (b := v.toNat) (by omega), SM.set_run] at h2
  rcases hq : p b ⟨r1.start, r1.start + v.toNat⟩ with ⟨o, r2⟩
  rw [hq] at h2
  cases o with
  | ok a =>
    simp only [SM.pure_run, Prod.mk.injEq, Out.ok.injEq] at h2
    obtain ⟨rfl, rfl⟩ := h2
    obtain ⟨e, hpay2⟩ := hp b ⟨r1.start, r1.start + v.toNat⟩ a r2 hR (by unfold InRange; simp only; omega) (by simp only; omega) hq
    have e1 : behind b ⟨r1.start, r1.start + v.toNat⟩ = behind b r1 := rfl
    have e2 : behind b ⟨r2.fin, r1.fin⟩ = behind b r2 := by unfold behind; rw [← e]
    rw [e1] at hpay2
    rw [e2]
    omega
  | _ => simp at h2

theorem getRange_length {b c : Bytes} {i j : Nat} (h : getRange b i j = some c) : i ≤ j ∧ j ≤ b.length ∧ c.length = j - i := by
  unfold getRange at h
  split at h
  · rename_i hh
    cases h
    refine ⟨hh.1, hh.2, ?_⟩
    rw [List.length_take, List.length_drop]
    omega
  · cases h

theorem Pays.read_delimited {c : Nat} {p : Bytes → RM Bytes} (hK : 1 ≤ K)
    (hp : ∀ b r x r', p b r = (.ok x, r') → r' = r ∧ getRange b r.start r.fin = some x) :
    Pays T K c (fun bs => BytesReader.read_len_varint T bs (p bs)) (fun x => c + K + x.length) := by
  intro b r x r' hR hr h
  obtain ⟨v, r1, h1, h2⟩ := SM.bind_ok_inv h
  have hin := read_varint32_in h1
  have hlt := v.isLt
  have hR' := hR
  unfold Roomy at hR'
  simp only [read_len, SM.bind_run, SM.get_run, SM.lift_run,
    usizeAdd_ok (T := T) (a := r1.start) (b := v.toNat) (by omega), SM.set_run] at h2
  rcases hq : p b ⟨r1.start, r1.start + v.toNat⟩ with ⟨o, r2⟩
  rw [hq] at h2
  cases o with
  | ok a =>
    simp only [SM.pure_run, Prod.mk.injEq, Out.ok.injEq] at h2
    obtain ⟨rfl, rfl⟩ := h2
    obtain ⟨rfl, hg⟩ := hp _ _ _ _ hq
    obtain ⟨_, g2, g3⟩ := getRange_length hg
    simp only at g2 g3
    have : behind b r + 1 + a.length ≤ behind b ⟨r1.start + v.toNat, r1.fin⟩ := by
      unfold behind; simp only; omega
    have := Nat.mul_le_mul_left K this
    rw [Nat.mul_add, Nat.mul_add, Nat.mul_one] at this
    have : a.length ≤ K * a.length := Nat.le_mul_of_pos_left _ (by omega)
    simp only
    omega
  | _ => simp at h2

theorem Pays.read_packed_fixed {c : Nat} (hT : T.overflowChecks = true) (M : MemTy α) (hK : 1 ≤ K) :
    Pays T K c (BytesReader.read_packed_fixed T M) (fun p => c + K + Gen.packedBytes M.size p) := by
  intro b r x r' hR hr h
  have hor := ((Good.read_packed_fixed hT M).orderly b r hR hr _ _ h)
  unfold BytesReader.read_packed_fixed at h
  obtain ⟨v, r1, h1, k1⟩ := SM.bind_ok_inv h
  have hin := read_varint32_in h1
  obtain ⟨rem, r2, h2, k2⟩ := SM.bind_ok_inv k1
  have e2 : r2 = r1 := by
    simp only [BytesReader.len, SM.bind_run, SM.get_run, SM.lift_run, Prod.mk.injEq] at h2
    exact h2.2.symm
  subst e2
  by_cases hc1 : rem < v.toNat
  · rw [if_pos hc1] at k2
    simp [SM.throw_run] at k2
  rw [if_neg hc1] at k2
  by_cases hc2 : M.size = 0
  · rw [if_pos hc2] at k2
    simp [SM.lift_run] at k2
  rw [if_neg hc2] at k2
  obtain ⟨r3, r4, h3, k3⟩ := SM.bind_ok_inv k2
  simp only [SM.get_run, Prod.mk.injEq, Out.ok.injEq] at h3
  obtain ⟨rfl, rfl⟩ := h3
  obtain ⟨stop, r5, h4, k4⟩ := SM.bind_ok_inv k3
  have e5 : r5 = r2 := by simp only [SM.lift_run, Prod.mk.injEq] at h4; exact h4.2.symm
  subst e5
  obtain ⟨target, r6, h5, k5⟩ := SM.bind_ok_inv k4
  cases hg : getRange b r5.start stop with
  | none => simp only [hg, SM.lift_run, Prod.mk.injEq] at h5; simp at h5
  | some y =>
    simp only [hg, SM.pure_run, Prod.mk.injEq, Out.ok.injEq] at h5
    obtain ⟨rfl, rfl⟩ := h5
    obtain ⟨st, r7, h6, k6⟩ := SM.bind_ok_inv k5
    simp only [SM.lift_run, Prod.mk.injEq] at h6
    obtain ⟨h6, rfl⟩ := h6
    simp only [SM.bind_run, SM.set_run, SM.pure_run, Prod.mk.injEq, Out.ok.injEq] at k6
    obtain ⟨rfl, rfl⟩ := k6
    obtain ⟨g1, g2, g3⟩ := getRange_length hg
    have hlt := v.isLt
    have hR' := hR
    unfold Roomy at hR'
    have hst : st = r5.start + v.toNat := by
      rw [usizeAdd_ok (T := T) (by omega)] at h6
      exact (Out.ok.inj h6).symm
    have hstop : stop ≤ r5.start + v.toNat := by
      have hle : v.toNat / M.size * M.size ≤ v.toNat := Nat.div_mul_le_self _ _
      simp only [SM.lift_run, Prod.mk.injEq] at h4
      rw [usizeAdd_ok (T := T) (by omega)] at h4
      have := Out.ok.inj h4.1
      omega
    have : behind b r + 1 + y.length ≤ behind b ⟨st, r5.fin⟩ := by
      unfold behind; simp only; omega
    have := Nat.mul_le_mul_left K this
    rw [Nat.mul_add, Nat.mul_add, Nat.mul_one] at this
    have : y.length ≤ K * y.length := Nat.le_mul_of_pos_left _ (by omega)
    show c + K + y.length + _ ≤ _
    omega

end
end QP

namespace QP.Gen
open QP.Pbrs Spec BytesReader

theorem weight_pos (v : RVal) : 1 ≤ v.weight := by
  cases v <;> simp only [RVal.weight] <;> omega

theorem weights_append (l k : List RVal) : weights (l ++ k) = weights l + weights k := by
  induction l with
  | nil => simp [weights]
  | cons v l ih => simp only [List.cons_append, weights, ih]; omega

theorem weights_reverse (l : List RVal) : weights l.reverse = weights l := by
  induction l with
  | nil => rfl
  | cons v l ih => simp only [List.reverse_cons, weights_append, weights, ih]; omega

theorem weights_modify {f : RVal → RVal} {x : Nat} (hf : ∀ v, (f v).weight ≤ v.weight + x) : ∀ (l : List RVal) (j : Nat),
    weights (l.modify j f) ≤ weights l + x
  | [], j => by simp [weights]
  | v :: l, 0 => by
    have := hf v
    simp only [List.modify_zero_cons, weights]; omega
  | v :: l, j + 1 => by
    have := weights_modify hf l j
    simp only [List.modify_succ_cons, weights]; omega

theorem weight_insertKV (k v : RVal) (l : List (RVal × RVal)) : pairWeights (insertKV k v l) ≤ pairWeights l + k.weight + v.weight := by
  induction l with
  | nil => simp [insertKV, pairWeights]
  | cons p l ih =>
    obtain ⟨k', v'⟩ := p
    unfold insertKV
    split
    · simp only [pairWeights]; omega
    · simp only [pairWeights]; omega

theorem weight_armApply (a : Arm) (old new : RVal) : (armApply a old new).weight ≤ old.weight + (new.weight + 1) := by
  unfold armApply
  split
  · simp only [RVal.weight]; omega
  · split
    · simp only [RVal.weight]; omega
    · split
      · split
        · simp only [RVal.weight]; omega
        · omega
      · split
        · omega
        · split
          · simp only [RVal.weight, weights_append, weights]; omega
          · omega
      · split
        · rename_i l k v
          have := weight_insertKV k v l
          simp only [RVal.weight, pairWeights]; omega
        · omega

section
variable {C : Ctx} {rd : MessageIndex → Bytes → RM RVal} {K W : Nat}

theorem weight_typDefault (hW : 1 ≤ W) (hd : ∀ idx m, C.D.getMessage idx = some m → (C.dflt idx).weight ≤ W) {t : FieldType} (ht : TypOk C t) :
    (typDefault C t).weight ≤ W := by
  cases t <;> simp only [typDefault, RVal.weight, List.length_nil, pairWeights] <;> first | omega | skip
  obtain ⟨m, hm⟩ := ht
  exact hd _ m hm

theorem pays_readTyp (hg : ∀ m, GoodEntry C.T (rd m)) (hK : W + 1 ≤ K)
    (hrd : ∀ m c, PaysEntry C.T K (c + W) (rd m) (fun v => c + v.weight)) (t : FieldType) (c : Nat) :
    Pays C.T K c (readTyp C rd t) (fun v => c + v.weight) := by
  have adv := adv_readTyp (C := C) hg t
  have str : ∀ {p : Bytes → RM Bytes}, (∀ b r x r', p b r = (.ok x, r') → r' = r ∧ getRange b r.start r.fin = some x) →
      Pays C.T K c (fun b => do let x ← BytesReader.read_len_varint C.T b (p b); pure (RVal.bytes x)) (fun v : RVal => c + v.weight) := fun hp =>
    Pays.map (Pays.read_delimited (T := C.T) (K := K) (c := c) (by omega) hp) RVal.bytes (fun a => by simp only [RVal.weight]; omega)
  have hself : ∀ b r x r', getSelf b r = (.ok x, r') → r' = r ∧ getRange b r.start r.fin = some x := by
    intro b r x r' h
    simp only [getSelf, SM.bind_run, SM.get_run, SM.okOr_run] at h
    cases hg : getRange b r.start r.fin with
    | none => simp only [hg, Prod.mk.injEq] at h; simp at h
    | some y =>
      simp only [hg, Prod.mk.injEq, Out.ok.injEq] at h
      obtain ⟨rfl, rfl⟩ := h
      exact ⟨rfl, rfl⟩
  have hstr : ∀ b r x r', (do let x ← getSelf b; if utf8Ok x then pure x else SM.throw .Utf8 : RM Bytes) r = (.ok x, r') →
      r' = r ∧ getRange b r.start r.fin = some x := by
    intro b r x r' h
    obtain ⟨y, r1, h1, h2⟩ := SM.bind_ok_inv h
    obtain ⟨rfl, h3⟩ := hself b r y r1 h1
    split at h2
    · simp only [SM.pure_run, Prod.mk.injEq, Out.ok.injEq] at h2
      obtain ⟨rfl, rfl⟩ := h2
      exact ⟨rfl, h3⟩
    · simp [SM.throw_run] at h2
  have one : (∀ b r v r', readTyp C rd t b r = (.ok v, r') → v.weight = 1) → Pays C.T K c (readTyp C rd t) (fun v => c + v.weight) := by
    intro h b r v r' hR hr he
    have := Pays.adv (K := K) adv c b r v r' hR hr he
    have := h b r v r' he
    simp only at *
    omega
  have onev : ∀ {α : Type} {p : Bytes → RM α} {f : α → RVal}, (∀ x, (f x).weight = 1) → ∀ b r v r',
      (do let x ← p b; pure (f x) : RM RVal) r = (.ok v, r') → v.weight = 1 := by
    intro α p f hf b r v r' h
    obtain ⟨y, r1, h1, h2⟩ := SM.bind_ok_inv h
    simp only [SM.pure_run, Prod.mk.injEq, Out.ok.injEq] at h2
    rw [← h2.1]
    exact hf y
  cases t
  case stringCow => exact str hstr
  case string_ => exact str hstr
  case bytesCow => exact str hself
  case bytes_ => exact str hself
  case message m => exact Pays.read_len_varint ((hrd m c).mono (by omega) (fun _ => Nat.le_refl _))
  case messageOrEnum => exact Pays.lift (by simp) _ _
  case map => exact Pays.lift (by simp) _ _
  case int32 => exact one (onev (p := fun b => read_int32 b) (f := RVal.w32) (fun _ => rfl))
  case int64 => exact one (onev (p := fun b => read_int64 b) (f := RVal.w64) (fun _ => rfl))
  case uint32 => exact one (onev (p := fun b => read_uint32 b) (f := RVal.w32) (fun _ => rfl))
  case uint64 => exact one (onev (p := fun b => read_uint64 b) (f := RVal.w64) (fun _ => rfl))
  case sint32 => exact one (onev (p := fun b => read_sint32 b) (f := RVal.w32) (fun _ => rfl))
  case sint64 => exact one (onev (p := fun b => read_sint64 b) (f := RVal.w64) (fun _ => rfl))
  case bool => exact one (onev (p := fun b => read_bool b) (f := RVal.bool) (fun _ => rfl))
  case enum e => exact one (onev (p := fun b => read_enum (enumFrom (C.enumNums e)) b) (f := RVal.w32) (fun _ => rfl))
  case fixed64 => exact one (onev (p := fun b => read_fixed64 C.T b) (f := RVal.w64) (fun _ => rfl))
  case sfixed64 => exact one (onev (p := fun b => read_sfixed64 C.T b) (f := RVal.w64) (fun _ => rfl))
  case double => exact one (onev (p := fun b => read_double C.T b) (f := RVal.w64) (fun _ => rfl))
  case fixed32 => exact one (onev (p := fun b => read_fixed32 C.T b) (f := RVal.w32) (fun _ => rfl))
  case sfixed32 => exact one (onev (p := fun b => read_sfixed32 C.T b) (f := RVal.w32) (fun _ => rfl))
  case float => exact one (onev (p := fun b => read_float C.T b) (f := RVal.w32) (fun _ => rfl))

theorem pays_armRead (hT : C.T.overflowChecks = true) (hg : ∀ m, GoodEntry C.T (rd m))
    (hK : 2 * W + 1 ≤ K) (hrd : ∀ m c, PaysEntry C.T K (c + W) (rd m) (fun v => c + v.weight)) (fuel : Nat) (a : Arm)
    (ha : ∀ k v, a.field.typ = .map k v → (typDefault C k).weight ≤ W ∧ (typDefault C v).weight ≤ W) (c : Nat) :
    Pays C.T K c (armRead C rd fuel a) (fun v => c + v.weight) := by
  have ht := pays_readTyp hg (by omega) hrd
  have gt := good_readTyp hT hg
  unfold armRead
  refine Pays.ite (ht _ c) ?_
  cases a.field.frequency.generated
  · exact ht _ c
  · refine Pays.ite (Pays.ite (Pays.ite ?_ ?_) ?_) (ht _ c)
    · exact Pays.map (Pays.read_packed_fixed (K := K) hT (MemTy.int C.T 8) (by omega)) RVal.pf64
        (fun p => by simp only [RVal.weight]; show _ ≤ c + K + packedBytes 8 p; omega)
    · exact Pays.map (Pays.read_packed_fixed (K := K) hT (MemTy.int C.T 4) (by omega)) RVal.pf32
        (fun p => by simp only [RVal.weight]; show _ ≤ c + K + packedBytes 4 p; omega)
    · refine Pays.map (w := fun l => c + K + weights l) ?_ RVal.vec (fun l => by simp only [RVal.weight]; omega)
      refine Pays.read_len_varint ?_
      have gs : ∀ acc : List RVal, Good C.T (fun b => (do let m ← readTyp C rd a.field.typ b; pure (m :: acc))) :=
        fun acc => Good.bind (gt _) (fun m => Good.pure _)
      refine PaysEntry.map (w := fun l => c + K + weights l) ?_ List.reverse (fun l => by rw [weights_reverse]; omega)
      have := PaysEntry.loop (T := C.T) (K := K) (step := fun b (acc : List RVal) => (do let m ← readTyp C rd a.field.typ b; pure (m :: acc)))
        (w := fun l => c + K + weights l) gs (fun acc => Pays.map (ht a.field.typ (c + K + weights acc)) _ (fun v => by
          simp only [weights]; omega)) fuel []
      exact this.mono (by simp [weights]) (fun _ => Nat.le_refl _)
  · cases hty : a.field.typ
    case map k v =>
      refine Pays.map (w := fun kv : RVal × RVal => c + kv.1.weight + kv.2.weight + 1) ?_ (fun kv => RVal.map [kv])
        (fun kv => by simp only [RVal.weight, pairWeights]; omega)
      refine Pays.read_len_varint ?_
      have gs : ∀ kv : RVal × RVal, Good C.T (fun b => (do
          let t ← read_u8 b
          let n := t >>> 3
          if n = 1#8 then do
            let k ← readTyp C rd k b
            pure (k, kv.2)
          else if n = 2#8 then do
            let v ← readTyp C rd v b
            pure (kv.1, v)
          else SM.throw (.Map n))) := fun kv =>
        Good.bind Good.read_u8 (fun t => Good.ite (Good.bind (gt k) (fun k => Good.pure (k, kv.2)))
          (Good.ite (Good.bind (gt v) (fun v => Good.pure (kv.1, v))) (Good.throw _)))
      have := PaysEntry.loop (T := C.T) (K := K) (step := fun b (kv : RVal × RVal) => (do
          let t ← read_u8 b
          let n := t >>> 3
          if n = 1#8 then do
            let k ← readTyp C rd k b
            pure (k, kv.2)
          else if n = 2#8 then do
            let v ← readTyp C rd v b
            pure (kv.1, v)
          else SM.throw (.Map n))) (w := fun kv : RVal × RVal => c + kv.1.weight + kv.2.weight + 1) gs (fun kv =>
        Pays.bind Good.read_u8 (Pays.adv Adv.read_u8 _) (fun t =>
          Pays.ite (Pays.map (ht k _) (fun k => (k, kv.2)) (fun x => by simp only; omega))
            (Pays.ite (Pays.map (ht v _) (fun v => (kv.1, v)) (fun x => by simp only; omega)) (Pays.throw _ _ _)))) fuel
        (typDefault C k, typDefault C v)
      refine this.mono ?_ (fun _ => Nat.le_refl _)
      obtain ⟨h1, h2⟩ := ha k v hty
      simp only
      omega
    all_goals exact Pays.lift (by simp) _ _

theorem pays_msgStep (hT : C.T.overflowChecks = true) (hg : ∀ m, GoodEntry C.T (rd m))
    (hK : 2 * W + 1 ≤ K) (hrd : ∀ m c, PaysEntry C.T K (c + W) (rd m) (fun v => c + v.weight)) (fuel : Nat) (as : List Arm)
    (ha : ∀ a ∈ as, ∀ k v, a.field.typ = .map k v → (typDefault C k).weight ≤ W ∧ (typDefault C v).weight ≤ W)
    (slots : List RVal) (c : Nat) : Pays C.T K (c + weights slots) (fun b => msgStep C rd fuel as b slots) (fun s => c + weights s) := by
  unfold msgStep
  refine Pays.bind Good.read_varint32 (Pays.adv Adv.read_varint32 _) (fun t => ?_)
  cases hf : as.find? (fun a => a.field.tag == t) with
  | none => exact Pays.map (Pays.good (Good.read_unknown hT t) _) _ (fun _ => by omega)
  | some a =>
    refine Pays.map (pays_armRead hT hg hK hrd fuel a (ha a (List.mem_of_find?_eq_some hf)) _) _ (fun v => ?_)
    have := weights_modify (weight_armApply a · v) slots a.slot
    unfold setSlot
    omega

end

theorem pays_fromReader {C : Ctx} {K W : Nat} (hT : C.T.overflowChecks = true) (hW : 1 ≤ W) (hC : Resolved C)
    (hd : ∀ idx m, C.D.getMessage idx = some m → (C.dflt idx).weight ≤ W)
    (hK : 2 * W + 1 ≤ K) (n : Nat) : ∀ (idx : MessageIndex) (c : Nat), PaysEntry C.T K (c + W) (fromReader C n idx) (fun v => c + v.weight) := by
  induction n with
  | zero =>
    intro idx c b r a r' _ _ _ h
    simp [fromReader, SM.lift_run] at h
  | succ n ih =>
    intro idx c
    cases h : C.D.getMessage idx with
    | none =>
      rw [fromReader_none n h]
      intro b r a r' _ _ _ h
      simp [SM.lift_run] at h
    | some m =>
      cases hu : m.isUnit
      · rw [fromReader_msg n h hu]
        have hg := goodEntry_fromReader (C := C) hT n
        have hA : ∀ a ∈ arms C.cfg m, ∀ k v, a.field.typ = .map k v → (typDefault C k).weight ≤ W ∧ (typDefault C v).weight ≤ W := by
          intro a ha k v hty
          have h1 := (hC idx m h a ha).1
          rw [hty] at h1
          exact ⟨weight_typDefault hW hd h1.1, weight_typDefault hW hd h1.2.1⟩
        have hl := PaysEntry.loop (T := C.T) (K := K) (step := fun b => msgStep C (fromReader C n) (n + 1) (arms C.cfg m) b)
          (w := fun s => c + 1 + weights s) (fun s => good_msgStep hT hg (n + 1) _ s)
          (fun s => pays_msgStep hT hg hK ih (n + 1) _ hA s (c + 1)) (n + 1) (C.dflt idx).slots
        refine PaysEntry.map (hl.mono ?_ (fun _ => Nat.le_refl _)) RVal.struct (fun s => by simp only [RVal.weight]; omega)
        have h1 := hd idx m h
        cases hdi : C.dflt idx <;> simp only [hdi, RVal.slots, weights, RVal.weight] at h1 ⊢ <;> omega
      · rw [fromReader_unit n h hu]
        intro b r a r' hR hr hle he
        simp only [read_to_end, SM.bind_run, SM.get_run, SM.set_run, SM.pure_run, Prod.mk.injEq, Out.ok.injEq] at he
        obtain ⟨rfl, rfl⟩ := he
        refine ⟨rfl, ?_⟩
        have h1 := hd idx m h
        have : behind b r ≤ behind b ⟨r.fin, r.fin⟩ := by unfold behind; simp only; omega
        have := Nat.mul_le_mul_left K this
        simp only
        omega

end QP.Gen
