import Verif.Spec.Slices
import Verif.Proofs.Typed
/-!
# The slices of decoded values
-/

set_option linter.unusedVariables false

namespace QP.Gen
open QP.Pbrs Spec

theorem mem_slicesOf {s : Bytes} {l : List RVal} : s ∈ slicesOf l ↔ ∃ v ∈ l, s ∈ v.slices := by
  induction l with
  | nil => simp [slicesOf]
  | cons v l ih => simp [slicesOf, ih]

theorem mem_entrySlices {s : Bytes} {l : List (RVal × RVal)} : s ∈ entrySlices l ↔ ∃ e ∈ l, s ∈ e.1.slices ∨ s ∈ e.2.slices := by
  induction l with
  | nil => simp [entrySlices]
  | cons e l ih =>
    obtain ⟨k, v⟩ := e
    simp [entrySlices, ih, or_assoc]

section
variable {C : Ctx}

/-- A string that does not come from the input: the empty one, or one in the default value of a message. -/
def FromDefault (C : Ctx) (s : Bytes) : Prop := s = [] ∨ ∃ idx, s ∈ (C.dflt idx).slices

/-- Every slice of `v` is in `b`, or comes from a default. -/
def From (C : Ctx) (b : Bytes) (v : RVal) : Prop := ∀ s ∈ v.slices, s <:+: b ∨ FromDefault C s

theorem From.mono {b c : Bytes} {v : RVal} (h : From C b v) (hb : b <:+: c) : From C c v :=
  fun s hs => (h s hs).imp (·.trans hb) id

theorem from_typDefault (t : FieldType) (b : Bytes) : From C b (typDefault C t) := by
  intro s hs
  cases t <;> simp only [typDefault, RVal.slices, List.not_mem_nil, List.mem_singleton, entrySlices] at hs
  case message i => exact Or.inr (Or.inr ⟨i, hs⟩)
  all_goals exact Or.inr (Or.inl hs)

theorem insertKV_from {b : Bytes} {k v : RVal} {l : List (RVal × RVal)} (hk : From C b k) (hv : From C b v) (hl : ∀ s ∈ entrySlices l, s <:+: b ∨ FromDefault C s) :
    ∀ s ∈ entrySlices (insertKV k v l), s <:+: b ∨ FromDefault C s := by
  intro s hx
  rw [mem_entrySlices] at hx
  obtain ⟨e, he, hx⟩ := hx
  rcases insertKV_mem he with rfl | he | ⟨h1, v', he⟩
  · exact hx.elim (hk s) (hv s)
  · exact hl s (mem_entrySlices.mpr ⟨e, he, hx⟩)
  · rcases hx with hx | hx
    · exact hl s (mem_entrySlices.mpr ⟨_, he, Or.inl hx⟩)
    · exact hv s (h1 ▸ hx)

/-- Whatever the state, a successful run returns a value with property `P`. -/
def Ens {σ α : Type} (m : SM σ α) (P : α → Prop) : Prop := ∀ s a s', m s = (.ok a, s') → P a

section
variable {σ α β : Type}

theorem Ens.pure {a : α} {P : α → Prop} (h : P a) : Ens (Pure.pure a : SM σ α) P := by
  intro s b s' hr
  cases hr
  exact h

theorem Ens.bind {m : SM σ α} {f : α → SM σ β} {Q : α → Prop} {P : β → Prop} (hm : Ens m Q) (hf : ∀ a, Q a → Ens (f a) P) : Ens (m >>= f) P := by
  intro s b s' hr
  obtain ⟨a, s1, h1, h2⟩ := SM.bind_ok_inv hr
  exact hf a (hm _ _ _ h1) _ _ _ h2

theorem Ens.any {m : SM σ α} : Ens m (fun _ => True) := fun _ _ _ _ => trivial

theorem Ens.seq {m : SM σ α} {f : α → SM σ β} {P : β → Prop} (hf : ∀ a, Ens (f a) P) : Ens (m >>= f) P := Ens.bind Ens.any (fun a _ => hf a)

theorem Ens.throw {e : Error} {P : α → Prop} : Ens (SM.throw e : SM σ α) P := by intro s a s' h; cases h

theorem Ens.panic {P : α → Prop} : Ens (SM.lift .panic : SM σ α) P := by intro s a s' h; cases h

theorem Ens.timeout {P : α → Prop} : Ens (SM.lift .timeout : SM σ α) P := by intro s a s' h; cases h

theorem Ens.ite {c : Prop} [Decidable c] {m n : SM σ α} {P : α → Prop} (hm : Ens m P) (hn : Ens n P) : Ens (if c then m else n) P := by
  split
  · exact hm
  · exact hn
end

theorem getRange_infix {bytes x : Bytes} {a b : Nat} (h : getRange bytes a b = Option.some x) : x <:+: bytes := by
  unfold getRange at h
  split at h
  · cases h
    exact (List.take_prefix _ _).isInfix.trans (List.drop_suffix _ _).isInfix
  · cases h

open BytesReader in
theorem ens_getSelf (bytes : Bytes) : Ens (getSelf bytes) (· <:+: bytes) := by
  refine Ens.seq fun r => ?_
  intro s x s' h
  rw [SM.okOr_run] at h
  cases hg : getRange bytes r.start r.fin <;> simp only [hg] at h <;> cases h
  exact getRange_infix hg

open BytesReader in
theorem ens_len_varint {M : Type} {T : Target} {bytes : Bytes} {rd : RM M} {P : M → Prop} (h : Ens rd P) : Ens (read_len_varint T bytes rd) P := by
  refine Ens.seq fun l => Ens.seq fun r => Ens.seq fun fin => Ens.seq fun _ => Ens.bind h fun v hv => Ens.seq fun _ => Ens.seq fun _ => Ens.pure hv

open BytesReader in
theorem ens_while {A : Type} {step : A → RM A} {P : A → Prop} (h : ∀ a, P a → Ens (step a) P) (fuel : Nat) : ∀ a, P a → Ens (whileNotEof step fuel a) P := by
  induction fuel with
  | zero => intro a ha; exact Ens.timeout
  | succ fuel ih =>
    intro a ha
    exact Ens.seq fun r => Ens.ite (Ens.pure ha) (Ens.bind (h a ha) ih)

open BytesReader in
theorem ens_packed_fixed {α : Type} {T : Target} {M : MemTy α} {bytes : Bytes} : Ens (read_packed_fixed T M bytes) (fun p => ∀ s ∈ packedSlices p, s <:+: bytes) := by
  refine Ens.seq fun len => Ens.seq fun rem => Ens.ite Ens.throw (Ens.ite Ens.panic ?_)
  refine Ens.seq fun r => Ens.seq fun stop => Ens.bind (Q := (· <:+: bytes)) ?_ fun x hx => Ens.seq fun _ => Ens.seq fun _ => Ens.pure ?_
  · cases hg : getRange bytes r.start stop with
    | none => exact Ens.panic
    | some x => exact Ens.pure (getRange_infix hg)
  · intro s hs
    rw [List.mem_singleton.mp hs]
    exact hx

section
variable {rd : MessageIndex → Bytes → RM RVal} {b : Bytes}
open BytesReader

theorem from_nil {v : RVal} (h : v.slices = []) : From C b v := fun s hs => by rw [h] at hs; cases hs

theorem from_bytes' {x : Bytes} (h : x <:+: b) : From C b (.bytes x) := fun s hs => Or.inl (by rw [List.mem_singleton.mp hs]; exact h)

theorem ens_readTyp (hr : ∀ i, Ens (rd i b) (From C b)) (t : FieldType) : Ens (readTyp C rd t b) (From C b) := by
  cases t <;> unfold readTyp
  case message i => exact ens_len_varint (hr i)
  case map | messageOrEnum => exact Ens.panic
  case stringCow | string_ =>
    refine Ens.bind (Q := (· <:+: b)) (ens_len_varint (Ens.bind (ens_getSelf b) fun x hx => Ens.ite (Ens.pure hx) Ens.throw)) fun x hx => Ens.pure (from_bytes' hx)
  case bytesCow | bytes_ =>
    exact Ens.bind (Q := (· <:+: b)) (ens_len_varint (ens_getSelf b)) fun x hx => Ens.pure (from_bytes' hx)
  all_goals exact Ens.seq fun x => Ens.pure (from_nil rfl)

theorem ens_armRead (hr : ∀ i, Ens (rd i b) (From C b)) (fuel : Nat) (a : Arm) : Ens (armRead C rd fuel a b) (From C b) := by
  unfold armRead
  refine Ens.ite (ens_readTyp hr _) ?_
  cases a.field.frequency.generated with
  | singular => exact ens_readTyp hr _
  | arrayLike =>
    refine Ens.ite (Ens.ite (Ens.ite ?_ ?_) ?_) (ens_readTyp hr _)
    · exact Ens.bind ens_packed_fixed fun p hp => Ens.pure fun s hs => Or.inl (hp s hs)
    · exact Ens.bind ens_packed_fixed fun p hp => Ens.pure fun s hs => Or.inl (hp s hs)
    · refine Ens.bind (Q := fun l => ∀ v ∈ l, From C b v) (ens_len_varint ?_) fun l hl => Ens.pure fun s hs => ?_
      · refine Ens.bind (Q := fun l => ∀ v ∈ l, From C b v) (ens_while (fun l hl => Ens.bind (ens_readTyp hr _) fun m hm => Ens.pure ?_) fuel [] (fun v hv => by cases hv)) fun l hl => Ens.pure fun v hv => hl v (List.mem_reverse.mp hv)
        intro v hv
        rcases List.mem_cons.mp hv with rfl | hv
        · exact hm
        · exact hl v hv
      · simp only [RVal.slices, mem_slicesOf] at hs
        obtain ⟨v, hv, hs⟩ := hs
        exact hl v hv s hs
  | map =>
    cases a.field.typ
    case map k v =>
      refine Ens.bind (Q := fun kv => From C b kv.1 ∧ From C b kv.2) (ens_len_varint (ens_while (fun kv hkv => ?_) fuel _ ⟨from_typDefault k b, from_typDefault v b⟩)) fun kv hkv => Ens.pure fun s hs => ?_
      · refine Ens.seq fun t => ?_
        dsimp only
        refine Ens.ite ?_ (Ens.ite ?_ Ens.throw)
        · exact Ens.bind (ens_readTyp hr k) fun x hx => Ens.pure ⟨hx, hkv.2⟩
        · exact Ens.bind (ens_readTyp hr v) fun x hx => Ens.pure ⟨hkv.1, hx⟩
      · obtain ⟨k', v'⟩ := kv
        simp only [RVal.slices, entrySlices, List.append_nil, List.mem_append] at hs
        exact hs.elim (hkv.1 s) (hkv.2 s)
    all_goals exact Ens.panic

theorem armApply_from {a : Arm} {old new : RVal} (ho : From C b old) (hn : From C b new) : From C b (armApply a old new) := by
  unfold armApply
  cases a.choice with
  | some i => exact hn
  | none =>
    dsimp only
    split
    · exact hn
    · split
      · split <;> exact hn
      · split
        · exact hn
        · split
          · intro s hs
            simp only [RVal.slices, mem_slicesOf, List.mem_append, List.mem_singleton] at hs
            obtain ⟨v, hv | rfl, hs⟩ := hs
            · exact ho s (by simp only [RVal.slices, mem_slicesOf]; exact ⟨v, hv, hs⟩)
            · exact hn s hs
          · exact ho
      · split
        · refine insertKV_from (fun s hs => hn s ?_) (fun s hs => hn s ?_) ho <;> simp [RVal.slices, entrySlices, hs]
        · exact ho

theorem ens_msgStep (hr : ∀ i, Ens (rd i b) (From C b)) (fuel : Nat) (as : List Arm) (slots : List RVal) (hs : ∀ v ∈ slots, From C b v) :
    Ens (msgStep C rd fuel as b slots) (fun l => ∀ v ∈ l, From C b v) := by
  refine Ens.seq fun t => ?_
  cases as.find? (fun a => a.field.tag == t) with
  | none => exact Ens.seq fun _ => Ens.pure hs
  | some a =>
    refine Ens.bind (ens_armRead hr fuel a) fun x hx => Ens.pure fun v hv => ?_
    unfold setSlot at hv
    obtain ⟨j, hj, rfl⟩ := List.getElem_of_mem hv
    rw [List.getElem_modify]
    have hj' : j < slots.length := by simpa using hj
    have := hs _ (List.getElem_mem hj')
    split
    · exact armApply_from this hx
    · exact this

theorem ens_fromReader (fuel : Nat) : ∀ (idx : MessageIndex), Ens (fromReader C fuel idx b) (From C b) := by
  induction fuel with
  | zero => intro idx; exact Ens.timeout
  | succ n ih =>
    intro idx
    have hd : From C b (C.dflt idx) := fun s hs => Or.inr (Or.inr ⟨idx, hs⟩)
    unfold fromReader
    cases C.D.getMessage idx with
    | none => exact Ens.panic
    | some m =>
      refine Ens.ite (Ens.seq fun _ => Ens.pure hd) ?_
      refine Ens.bind (ens_while (ens_msgStep ih (n + 1) (arms C.cfg m)) (n + 1) _ ?_) fun l hl => Ens.pure fun s hs => ?_
      · intro v hv s hs
        refine hd s ?_
        cases hdf : C.dflt idx with
        | struct l =>
          rw [hdf] at hv
          simp only [RVal.slices, mem_slicesOf]
          exact ⟨_, hv, hs⟩
        | _ => rw [hdf] at hv; simp [RVal.slots] at hv
      · simp only [RVal.slices, mem_slicesOf] at hs
        obtain ⟨v, hv, hs⟩ := hs
        exact hl v hv s hs
end
end


theorem dflt_constant {C : Ctx} (hD : IsDefault C) (hU : NoGhosts C) (n : Nat) :
    ∀ idx, sizeOf (C.dflt idx) ≤ n → ∀ s ∈ (C.dflt idx).slices, s = [] ∨ Constant C s := by
  induction n with
  | zero => intro idx h; cases hd : C.dflt idx <;> simp [hd] at h
  | succ n ih =>
    intro idx h s hs
    cases hm : C.D.getMessage idx with
    | none => exact Or.inl (hU idx hm s hs)
    | some m =>
      rw [hD idx m hm] at hs h
      simp only [RVal.slices, mem_slicesOf, List.mem_map] at hs
      obtain ⟨v, ⟨mem, hmem, rfl⟩, hs⟩ := hs
      have hsz : sizeOf (slotDefault C (m.mustGenerateImplDefault C.D C.cfg) mem) ≤ n := by
        have := List.sizeOf_lt_of_mem (List.mem_map_of_mem (f := slotDefault C (m.mustGenerateImplDefault C.D C.cfg)) hmem)
        simp only [RVal.struct.sizeOf_spec] at h
        omega
      cases mem with
      | oneof fs => cases hs
      | field f =>
        have hf : f ∈ m.fields := by
          unfold members at hmem
          rcases List.mem_append.mp hmem with h1 | h1
          · obtain ⟨g, hg, he⟩ := List.mem_map.mp h1
            cases he
            exact (List.mem_filter.mp hg).1
          · obtain ⟨o, _, he⟩ := List.mem_map.mp h1
            cases he
        have hTyp : ∀ t, sizeOf (typDefault C t) ≤ n → s ∈ (typDefault C t).slices → s = [] ∨ Constant C s := by
          intro t hn hst
          cases t <;> simp only [typDefault, RVal.slices, List.not_mem_nil, List.mem_singleton, entrySlices] at hst
          case message i => exact ih i hn s hst
          all_goals exact Or.inl hst
        unfold slotDefault at hs hsz
        dsimp only at hs hsz
        split at hs
        · cases hs
        · rename_i hc
          rw [if_neg hc] at hsz
          cases hg : f.frequency.generated <;> simp only [hg] at hs hsz
          · split at hs
            · rename_i hcu
              rw [if_pos hcu] at hsz
              unfold fieldDefault at hs hsz
              cases hdf : f.default with
              | some text => rw [hdf] at hs; exact Or.inr ⟨idx, m, f, text, hm, hf, hdf, hs⟩
              | none => simp only [hdf] at hs hsz; exact hTyp _ hsz hs
            · rename_i hcu
              rw [if_neg hcu] at hsz
              exact hTyp _ hsz hs
          · split at hs
            · split at hs
              · revert hs
                cases m.mustGenerateImplDefault C.D C.cfg <;> intro hs <;> cases hs
              · revert hs
                cases m.mustGenerateImplDefault C.D C.cfg <;> intro hs <;> cases hs
            · cases hs
          · cases hs

end QP.Gen
