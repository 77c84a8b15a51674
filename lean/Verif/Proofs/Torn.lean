import Verif.Spec.Torn
import Verif.Proofs.Limits
import Verif.Proofs.GenGood
import Verif.Proofs.GenMsg
/-! Reading a truncated buffer: the same, or an error. -/

set_option linter.unusedVariables false

namespace QP
open BytesReader

section
variable {T : Target} {pf : Prop} {α β : Type}

/-- What succeeds in a buffer does the same in any prefix of the buffer, or is rejected. -/
def Cut (pf : Prop) {α : Type} (p : Bytes → RM α) : Prop :=
  ∀ b n r a r', p b r = (.ok a, r') → p (b.take n) r = (.ok a, r') ∨ Rejected pf (p (b.take n) r).1

theorem Rejected.bind {m : RM α} {f : α → RM β} {r : BytesReader} (h : Rejected pf (m r).1) :
    Rejected pf ((m >>= f) r).1 := by
  rw [SM.bind_run]
  rcases hm : m r with ⟨o, r'⟩
  rw [hm] at h
  rcases h with ⟨e, h⟩ | ⟨hp, h⟩ <;> simp only at h <;> subst h
  · exact Or.inl ⟨e, rfl⟩
  · exact Or.inr ⟨hp, rfl⟩

theorem Cut.const (p : RM α) : Cut pf (fun _ => p) := fun _ _ _ _ _ h => Or.inl h

theorem Cut.bind {p : Bytes → RM α} {q : α → Bytes → RM β} (hp : Cut pf p) (hq : ∀ a, Cut pf (q a)) :
    Cut pf (fun b => do let a ← p b; q a b) := by
  intro b n r c r' h
  obtain ⟨a, r1, h1, h2⟩ := SM.bind_ok_inv h
  rcases hp b n r a r1 h1 with h3 | h3
  · rcases hq a b n r1 c r' h2 with h4 | h4
    · exact Or.inl ((SM.bind_ok h3).trans h4)
    · right
      show Rejected pf ((p (b.take n) >>= fun a => q a (b.take n)) r).1
      rw [SM.bind_ok h3]; exact h4
  · exact Or.inr h3.bind

theorem Cut.map {p : Bytes → RM α} (hp : Cut pf p) (f : α → β) : Cut pf (fun b => do let a ← p b; pure (f a)) :=
  Cut.bind hp (fun a => Cut.const (pure (f a)))

theorem Cut.ite {c : Prop} [Decidable c] {p q : Bytes → RM α} (hp : Cut pf p) (hq : Cut pf q) :
    Cut pf (fun b => if c then p b else q b) := by
  by_cases h : c
  · simp only [if_pos h]; exact hp
  · simp only [if_neg h]; exact hq

theorem Cut.read_u8 : Cut pf read_u8 := by
  intro b n r a r' h
  simp only [BytesReader.read_u8, SM.bind_run, SM.get_run, SM.okOr_run] at h ⊢
  cases hb : b[r.start]? with
  | none => simp only [hb] at h; cases h
  | some x =>
    simp only [hb] at h
    by_cases hn : r.start < n
    · left
      rw [List.getElem?_take_of_lt hn, hb]
      exact h
    · right
      rw [List.getElem?_take_eq_none (by omega)]
      exact Or.inl ⟨_, rfl⟩

theorem Cut.discardExtra (x : BitVec 32) : ∀ k, Cut pf (fun b => discardExtra b x k)
  | 0 => Cut.const _
  | k + 1 => by
    unfold BytesReader.discardExtra
    exact Cut.bind Cut.read_u8 (fun b => Cut.ite (Cut.const (pure x)) (Cut.discardExtra x k))

theorem Cut.read_varint32 : Cut pf read_varint32 := by
  unfold BytesReader.read_varint32
  repeat first
    | exact Cut.discardExtra _ _
    | exact Cut.const _
    | refine Cut.bind Cut.read_u8 (fun _ => ?_)
    | refine Cut.ite (Cut.const _) ?_

theorem Cut.read_varint64 : Cut pf read_varint64 := by
  unfold BytesReader.read_varint64
  repeat first
    | exact Cut.const _
    | refine Cut.bind Cut.read_u8 (fun _ => ?_)
    | refine Cut.ite (Cut.const _) ?_

theorem getRange_take {b x : Bytes} {n s e : Nat} (h : getRange b s e = some x) :
    getRange (b.take n) s e = some x ∨ getRange (b.take n) s e = none := by
  unfold getRange at h ⊢
  split at h
  · rename_i hc
    cases h
    by_cases hn : e ≤ n
    · left
      rw [if_pos ⟨hc.1, by rw [List.length_take]; omega⟩]
      congr 1
      rw [List.drop_take, List.take_take]
      congr 1
      omega
    · right
      rw [if_neg]
      rw [List.length_take]; omega
  · cases h

theorem Cut.range (s e : Nat) (err : Error) : Cut pf (fun b => (SM.okOr (getRange b s e) err : RM Bytes)) := by
  intro b n r a r' h
  simp only [SM.okOr_run] at h ⊢
  cases hg : getRange b s e with
  | none => simp only [hg] at h; cases h
  | some x =>
    simp only [hg] at h
    rcases getRange_take (n := n) hg with h1 | h1 <;> simp only [h1]
    · exact Or.inl h
    · exact Or.inr (Or.inl ⟨_, rfl⟩)

theorem Cut.get {q : BytesReader → Bytes → RM β} (hq : ∀ r, Cut pf (q r)) : Cut pf (fun b => do let r ← SM.get; q r b) :=
  Cut.bind (Cut.const SM.get) hq

theorem Cut.read_fixed (len : Nat) (f : Bytes → α) : Cut pf (fun b => BytesReader.read_fixed T b len f) := by
  unfold BytesReader.read_fixed
  refine Cut.get fun r => Cut.bind (Cut.const _) fun stop => Cut.bind (Cut.range _ _ _) fun _ => Cut.const _

theorem Cut.read_len {p : Bytes → RM α} (hp : Cut pf p) (len : Nat) : Cut pf (fun b => BytesReader.read_len T (p b) len) := by
  unfold BytesReader.read_len
  exact Cut.get fun r => Cut.bind (Cut.const _) fun fin => Cut.bind (Cut.const _) fun _ => Cut.bind hp fun _ => Cut.const _

theorem Cut.read_len_varint {p : Bytes → RM α} (hp : Cut pf p) : Cut pf (fun b => BytesReader.read_len_varint T b (p b)) := by
  unfold BytesReader.read_len_varint
  exact Cut.bind Cut.read_varint32 (fun len => Cut.read_len hp _)

theorem Cut.getSelf : Cut pf getSelf := by
  unfold BytesReader.getSelf
  exact Cut.get fun r => Cut.range _ _ _

theorem Cut.read_bytes : Cut pf (read_bytes T) := Cut.read_len_varint Cut.getSelf

theorem Cut.read_string : Cut pf (read_string T) :=
  Cut.read_len_varint (p := fun b => do let x ← BytesReader.getSelf b; if utf8Ok x then pure x else SM.throw .Utf8)
    (Cut.bind Cut.getSelf (fun x => Cut.const _))

theorem Cut.whileNotEof {A : Type} {step : Bytes → A → RM A} (hs : ∀ a, Cut pf (fun b => step b a)) :
    ∀ fuel acc, Cut pf (fun b => BytesReader.whileNotEof (step b) fuel acc)
  | 0, _ => Cut.const _
  | fuel + 1, acc => by
    unfold BytesReader.whileNotEof
    exact Cut.get fun r => Cut.ite (Cut.const _) (Cut.bind (hs acc) (fun a => Cut.whileNotEof hs fuel a))

theorem Cut.read_packed {p : Bytes → RM α} (hp : Cut pf p) (fuel : Nat) : Cut pf (fun b => BytesReader.read_packed T fuel b (p b)) := by
  unfold BytesReader.read_packed
  exact Cut.read_len_varint (p := fun b => do
    let v ← BytesReader.whileNotEof (fun (acc : List α) => do let m ← p b; pure (m :: acc)) fuel []
    pure v.reverse) (Cut.map (Cut.whileNotEof (step := fun b (acc : List α) => do let m ← p b; pure (m :: acc))
      (fun acc => Cut.map hp _) fuel []) _)

theorem Cut.read_map {K V : Type} {rk : Bytes → RM K} {rv : Bytes → RM V} (hk : Cut pf rk) (hv : Cut pf rv) (fuel : Nat) (k0 : K) (v0 : V) :
    Cut pf (fun b => BytesReader.read_map T fuel b k0 v0 (rk b) (rv b)) := by
  unfold BytesReader.read_map
  exact Cut.read_len_varint (p := fun b => BytesReader.whileNotEof (fun (kv : K × V) => do
      let t ← BytesReader.read_u8 b
      let n := t >>> 3
      if n = 1#8 then do
        let k ← rk b
        pure (k, kv.2)
      else if n = 2#8 then do
        let v ← rv b
        pure (kv.1, v)
      else SM.throw (.Map n)) fuel (k0, v0))
    (Cut.whileNotEof (step := fun b (kv : K × V) => do
      let t ← BytesReader.read_u8 b
      let n := t >>> 3
      if n = 1#8 then do
        let k ← rk b
        pure (k, kv.2)
      else if n = 2#8 then do
        let v ← rv b
        pure (kv.1, v)
      else SM.throw (.Map n)) (fun kv => Cut.bind Cut.read_u8 (fun t => Cut.ite (Cut.map hk _) (Cut.ite (Cut.map hv _) (Cut.const _)))) fuel (k0, v0))

theorem Cut.read_unknown (tag : BitVec 32) : Cut pf (fun b => BytesReader.read_unknown T b tag) := by
  unfold BytesReader.read_unknown
  exact Cut.ite (Cut.map Cut.read_varint64 _) (Cut.ite (Cut.const _) (Cut.ite (Cut.const _)
    (Cut.ite (Cut.bind Cut.read_varint64 (fun v => Cut.ite (Cut.const _) (Cut.const _))) (Cut.const _))))

theorem Cut.read_packed_fixed (hpf : pf) (M : MemTy α) : Cut pf (BytesReader.read_packed_fixed T M) := by
  unfold BytesReader.read_packed_fixed
  refine Cut.bind Cut.read_varint32 fun len => Cut.bind (Cut.const _) fun rem => Cut.ite (Cut.const _) (Cut.ite (Cut.const _) ?_)
  refine Cut.get fun r => Cut.bind (Cut.const _) fun stop => Cut.bind ?_ fun target => Cut.const _
  intro b n r0 a r' h
  cases hg : getRange b r.start stop with
  | none => simp only [hg, SM.lift_run] at h; cases h
  | some x =>
    simp only [hg] at h
    rcases getRange_take (n := n) hg with h1 | h1 <;> simp only [h1]
    · exact Or.inl h
    · exact Or.inr (Or.inr ⟨hpf, rfl⟩)

end

namespace Gen
open QP.Pbrs
variable {C : Ctx} {pf : Prop} {rd : MessageIndex → Bytes → RM RVal}

theorem cut_readTyp (hrd : ∀ m, Cut pf (rd m)) (t : FieldType) : Cut pf (readTyp C rd t) := by
  have hm : ∀ {α : Type} {p : Bytes → RM α} (f : α → RVal), Cut pf p →
      Cut pf (fun b => do let x ← p b; pure (f x)) := fun f hp => Cut.map hp f
  have v32 := Cut.read_varint32 (pf := pf)
  have v64 := Cut.read_varint64 (pf := pf)
  have f32 := Cut.read_fixed (T := C.T) (pf := pf) 4 leRead32
  have f64 := Cut.read_fixed (T := C.T) (pf := pf) 8 leRead64
  cases t
  case int32 => exact hm RVal.w32 v32
  case int64 => exact hm RVal.w64 v64
  case uint32 => exact hm RVal.w32 v32
  case uint64 => exact hm RVal.w64 v64
  case sint32 => exact hm RVal.w32 (Cut.map v32 _)
  case sint64 => exact hm RVal.w64 (Cut.map v64 _)
  case bool => exact hm RVal.bool (Cut.map v32 _)
  case enum e => exact hm RVal.w32 (Cut.map v32 _)
  case fixed64 => exact hm RVal.w64 f64
  case sfixed64 => exact hm RVal.w64 f64
  case double => exact hm RVal.w64 f64
  case fixed32 => exact hm RVal.w32 f32
  case sfixed32 => exact hm RVal.w32 f32
  case float => exact hm RVal.w32 f32
  case stringCow => exact hm RVal.bytes Cut.read_string
  case string_ => exact hm RVal.bytes Cut.read_string
  case bytesCow => exact hm RVal.bytes Cut.read_bytes
  case bytes_ => exact hm RVal.bytes Cut.read_bytes
  case message m => exact Cut.read_len_varint (hrd m)
  case messageOrEnum => exact Cut.const _
  case map => exact Cut.const _

theorem cut_armRead (hrd : ∀ m, Cut pf (rd m)) (fuel : Nat) (a : Arm)
    (hpf : a.choice = none → isPackedFixed a.field = true → a.field.frequency.generated = .arrayLike → pf) :
    Cut pf (armRead C rd fuel a) := by
  have hr := cut_readTyp (C := C) hrd
  unfold armRead
  by_cases hc : (a.choice.isSome || a.field.boxed) = true
  · simp only [hc, if_true]; exact hr _
  simp only [hc, Bool.false_eq_true, if_false]
  have hno : a.choice = none := by
    cases h : a.choice with
    | none => rfl
    | some c => simp [h] at hc
  cases hg : a.field.frequency.generated
  · exact hr _
  · by_cases hp : a.field.isPacked = true
    · simp only [hp, if_true]
      by_cases hf : a.field.typ.isFixedSize = true
      · have h : pf := hpf hno (by simp [isPackedFixed, hp, hf]) hg
        simp only [hf, if_true]
        exact Cut.ite (Cut.map (Cut.read_packed_fixed h _) _) (Cut.map (Cut.read_packed_fixed h _) _)
      · simp only [hf, Bool.false_eq_true, if_false]
        exact Cut.map (Cut.read_packed (hr _) fuel) _
    · simp only [hp, Bool.false_eq_true, if_false]
      exact hr _
  · cases a.field.typ
    case map k v => exact Cut.map (Cut.read_map (hr _) (hr _) fuel _ _) _
    all_goals exact Cut.const _

theorem cut_fromReader (n : Nat) : ∀ idx, Cut (HasPackedFixed C) (fromReader C n idx) := by
  induction n with
  | zero => intro idx; exact Cut.const _
  | succ n ih =>
    intro idx
    show Cut (HasPackedFixed C) (fun b => fromReader C (n + 1) idx b)
    simp only [fromReader]
    cases hm : C.D.getMessage idx with
    | none => exact Cut.const _
    | some m =>
      simp only
      refine Cut.ite (Cut.const _) (Cut.map (Cut.whileNotEof (fun slots => ?_) _ _) _)
      unfold msgStep
      refine Cut.bind Cut.read_varint32 fun t => ?_
      cases hf : (arms C.cfg m).find? (fun a => a.field.tag == t) with
      | none => exact Cut.map (Cut.read_unknown t) _
      | some a =>
        refine Cut.map (cut_armRead ih _ a fun hc hp hg => ?_) _
        obtain ⟨mem, h1, h2⟩ := mem_arms.mp (List.mem_of_find?_eq_some hf)
        cases mem with
        | field f =>
          simp only [memberArms, List.mem_singleton] at h2
          refine ⟨idx, m, f, hm, List.mem_of_getElem? h1, ?_, ?_⟩
          · rw [h2] at hp; exact hp
          · rw [h2] at hg; exact hg
        | oneof fs =>
          simp only [memberArms, List.mem_map] at h2
          obtain ⟨⟨f, i⟩, _, he⟩ := h2
          rw [← he] at hc
          cases hc

end Gen
end QP
