import Verif.Proofs.Orderly
import Verif.Props.Varint
import Verif.Spec.Fields
/-! Which operations keep the limit, and which stay inside the buffer. -/

namespace QP
open Spec BytesReader

/-- A successful run leaves the limit as it was. -/
def KeepsLimit {α : Type} (p : Bytes → RM α) : Prop :=
  ∀ bytes r a r', p bytes r = (.ok a, r') → r'.fin = r.fin

section
variable {T : Target} {α β : Type}

theorem SM.bind_ok_inv {σ α β : Type} {m : SM σ α} {f : α → SM σ β} {s s' : σ} {b : β}
    (h : (m >>= f) s = (.ok b, s')) : ∃ a s1, m s = (.ok a, s1) ∧ f a s1 = (.ok b, s') := by
  rw [SM.bind_run] at h
  rcases hm : m s with ⟨o, s1⟩
  rw [hm] at h
  cases o with
  | ok a => exact ⟨a, s1, rfl, h⟩
  | _ => simp at h

theorem KeepsLimit.pure (a : α) : KeepsLimit (fun _ => (Pure.pure a : RM α)) := by
  intro bytes r a r' h
  simp only [SM.pure_run, Prod.mk.injEq] at h
  rw [h.2]

theorem KeepsLimit.lift (o : Out α) : KeepsLimit (fun _ => (SM.lift o : RM α)) := by
  intro bytes r a r' h
  simp only [SM.lift_run, Prod.mk.injEq] at h
  rw [h.2]

theorem KeepsLimit.throw (e : Error) : KeepsLimit (fun _ => (SM.throw e : RM α)) :=
  KeepsLimit.lift (.err e)

theorem KeepsLimit.bind {p : Bytes → RM α} {q : α → Bytes → RM β} (hp : KeepsLimit p)
    (hq : ∀ a, KeepsLimit (q a)) : KeepsLimit (fun bs => do let a ← p bs; q a bs) := by
  intro bytes r b r' h
  obtain ⟨a, r1, h1, h2⟩ := SM.bind_ok_inv h
  rw [hq a _ _ _ _ h2, hp _ _ _ _ h1]

theorem KeepsLimit.ite {c : Prop} [Decidable c] {p q : Bytes → RM α} (hp : KeepsLimit p)
    (hq : KeepsLimit q) : KeepsLimit (fun bs => if c then p bs else q bs) := by
  by_cases h : c
  · simp only [if_pos h]; exact hp
  · simp only [if_neg h]; exact hq

theorem KeepsLimit.read_varint32 : KeepsLimit read_varint32 :=
  fun _ _ _ _ h => (read_varint32_in h).2.2

theorem KeepsLimit.read_varint64 : KeepsLimit read_varint64 :=
  fun _ _ _ _ h => (read_varint64_in h).2.2

theorem KeepsLimit.read_u8 : KeepsLimit read_u8 := by
  intro bytes r a r' h
  rcases hd : bytes.drop r.start with _ | ⟨b, l⟩
  · rw [read_u8_nil hd] at h; simp at h
  · rw [read_u8_cons hd, Prod.mk.injEq] at h
    rw [← h.2]

theorem KeepsLimit.read_fixed (len : Nat) (f : Bytes → α) :
    KeepsLimit (fun bs => BytesReader.read_fixed T bs len f) := by
  intro bytes r a r' h
  simp only [BytesReader.read_fixed] at h
  obtain ⟨r0, s0, h0, h⟩ := SM.bind_ok_inv h
  rw [SM.get_run, Prod.mk.injEq] at h0
  obtain ⟨h01, rfl⟩ := h0
  cases h01
  obtain ⟨st, s1, h1, h⟩ := SM.bind_ok_inv h
  rw [SM.lift_run, Prod.mk.injEq] at h1
  obtain ⟨_, rfl⟩ := h1
  obtain ⟨c, s2, h2, h⟩ := SM.bind_ok_inv h
  simp only [SM.bind_run, SM.set_run, SM.pure_run, Prod.mk.injEq] at h
  rw [← h.2]

/-- `read_len` restores the limit on success, whatever the nested reader did. -/
theorem KeepsLimit.read_len (p : Bytes → RM α) (len : Nat) :
    KeepsLimit (fun bs => BytesReader.read_len T (p bs) len) := by
  intro bytes r a r' h
  simp only [BytesReader.read_len] at h
  obtain ⟨r0, s0, h0, h⟩ := SM.bind_ok_inv h
  rw [SM.get_run, Prod.mk.injEq] at h0
  obtain ⟨h01, rfl⟩ := h0
  cases h01
  obtain ⟨st, s1, h1, h⟩ := SM.bind_ok_inv h
  obtain ⟨_, s2, h2, h⟩ := SM.bind_ok_inv h
  obtain ⟨v, s3, h3, h⟩ := SM.bind_ok_inv h
  simp only [SM.bind_run, SM.get_run, SM.set_run, SM.pure_run, Prod.mk.injEq] at h
  rw [← h.2]

theorem KeepsLimit.read_len_varint (p : Bytes → RM α) :
    KeepsLimit (fun bs => BytesReader.read_len_varint T bs (p bs)) :=
  KeepsLimit.bind KeepsLimit.read_varint32 (fun v => KeepsLimit.read_len p v.toNat)

/-- Where a successful `read_len` stops. -/
theorem read_len_stops {p : Bytes → RM α} (hp : KeepsLimit p) {len : Nat} {bytes : Bytes}
    {r r' : BytesReader} {a : α} (h : BytesReader.read_len T (p bytes) len r = (.ok a, r')) :
    T.usizeAdd r.start len = .ok r'.start ∧ r'.fin = r.fin ∧
      ∃ r1, p bytes ⟨r.start, r'.start⟩ = (.ok a, r1) := by
  refine ⟨?_, KeepsLimit.read_len p len bytes r a r' h, ?_⟩ <;>
  · simp only [BytesReader.read_len] at h
    obtain ⟨r0, s0, h0, h⟩ := SM.bind_ok_inv h
    rw [SM.get_run, Prod.mk.injEq] at h0
    obtain ⟨h01, rfl⟩ := h0
    cases h01
    obtain ⟨st, s1, h1, h⟩ := SM.bind_ok_inv h
    rw [SM.lift_run, Prod.mk.injEq] at h1
    obtain ⟨h1, rfl⟩ := h1
    obtain ⟨_, s2, h2, h⟩ := SM.bind_ok_inv h
    rw [SM.set_run, Prod.mk.injEq] at h2
    obtain ⟨_, rfl⟩ := h2
    obtain ⟨v, s3, h3, h⟩ := SM.bind_ok_inv h
    have := hp _ _ _ _ h3
    simp only [SM.bind_run, SM.get_run, SM.set_run, SM.pure_run, Prod.mk.injEq, Out.ok.injEq] at h
    simp only at this
    rw [← h.2]
    simp only [this]
    first
      | exact h1
      | exact ⟨s3, by rw [← h.1, ← h3]⟩

theorem KeepsLimit.getSelf : KeepsLimit getSelf := by
  intro bytes r a r' h
  simp only [BytesReader.getSelf, SM.bind_run, SM.get_run, SM.okOr_run] at h
  cases hg : getRange bytes r.start r.fin <;> rw [hg] at h <;>
    simp only [Prod.mk.injEq] at h <;> rw [h.2]

theorem KeepsLimit.whileNotEof {A : Type} {step : Bytes → A → RM A}
    (hs : ∀ a, KeepsLimit (fun b => step b a)) (fuel : Nat) (acc : A) :
    KeepsLimit (fun b => whileNotEof (step b) fuel acc) := by
  induction fuel generalizing acc with
  | zero => exact KeepsLimit.lift _
  | succ n ih =>
    intro bytes r a r' h
    simp only [BytesReader.whileNotEof, SM.bind_run, SM.get_run, SM.ite_run] at h
    split at h
    · simp only [SM.pure_run, Prod.mk.injEq] at h; rw [h.2]
    · exact KeepsLimit.bind (hs acc) (fun a => ih a) bytes r a r' h

theorem KeepsLimit.skip (n : Nat) : KeepsLimit (fun _ => BytesReader.skip T n) := by
  intro bytes r a r' h
  simp only [BytesReader.skip] at h
  obtain ⟨r0, s0, h0, h⟩ := SM.bind_ok_inv h
  rw [SM.get_run, Prod.mk.injEq] at h0
  obtain ⟨h01, rfl⟩ := h0
  cases h01
  obtain ⟨rem, s1, h1, h⟩ := SM.bind_ok_inv h
  rw [SM.lift_run, Prod.mk.injEq] at h1
  obtain ⟨_, rfl⟩ := h1
  rw [SM.ite_run] at h
  split at h
  · simp [SM.throw_run] at h
  · obtain ⟨st, s2, h2, h⟩ := SM.bind_ok_inv h
    rw [SM.set_run, Prod.mk.injEq] at h
    rw [← h.2]

theorem KeepsLimit.read_unknown (tag : BitVec 32) :
    KeepsLimit (fun bs => BytesReader.read_unknown T bs tag) := by
  unfold BytesReader.read_unknown
  refine KeepsLimit.ite (KeepsLimit.bind KeepsLimit.read_varint64 (fun _ => KeepsLimit.pure ())) ?_
  refine KeepsLimit.ite (KeepsLimit.skip 8) ?_
  refine KeepsLimit.ite (KeepsLimit.skip 4) ?_
  refine KeepsLimit.ite (KeepsLimit.bind KeepsLimit.read_varint64
    (fun v => KeepsLimit.ite (KeepsLimit.skip _) (KeepsLimit.throw _))) ?_
  exact KeepsLimit.ite (KeepsLimit.throw _) (KeepsLimit.throw _)

theorem KeepsLimit.read_to_end : KeepsLimit (fun _ => BytesReader.read_to_end) := by
  intro bytes r a r' h
  simp only [BytesReader.read_to_end, SM.bind_run, SM.get_run, SM.set_run, Prod.mk.injEq] at h
  rw [← h.2]

/-- What a successful `read_packed_fixed` did. -/
theorem read_packed_fixed_inv {M : MemTy α} {bytes : Bytes} {r r' : BytesReader}
    {pf : PackedFixed α} (h : BytesReader.read_packed_fixed T M bytes r = (.ok pf, r')) :
    ∃ len r1 rem stop x, BytesReader.read_varint32 bytes r = (.ok len, r1) ∧
      T.usizeSub r1.fin r1.start = .ok rem ∧ len.toNat ≤ rem ∧ M.size ≠ 0 ∧
      T.usizeAdd r1.start (len.toNat / M.size * M.size) = .ok stop ∧
      getRange bytes r1.start stop = some x ∧ pf = .borrowed x ∧
      T.usizeAdd r1.start len.toNat = .ok r'.start ∧ r'.fin = r.fin := by
  simp only [BytesReader.read_packed_fixed] at h
  obtain ⟨len, r1, h1, h⟩ := SM.bind_ok_inv h
  obtain ⟨rem, s2, h2, h⟩ := SM.bind_ok_inv h
  simp only [BytesReader.len, SM.bind_run, SM.get_run, SM.lift_run, Prod.mk.injEq] at h2
  obtain ⟨h2, rfl⟩ := h2
  rw [SM.ite_run] at h
  split at h
  · simp [SM.throw_run] at h
  rw [SM.ite_run] at h
  split at h
  · simp [SM.lift_run] at h
  obtain ⟨r0, s0, h0, h⟩ := SM.bind_ok_inv h
  rw [SM.get_run, Prod.mk.injEq] at h0
  obtain ⟨h01, rfl⟩ := h0
  cases h01
  obtain ⟨stop, s3, h3, h⟩ := SM.bind_ok_inv h
  rw [SM.lift_run, Prod.mk.injEq] at h3
  obtain ⟨h3, rfl⟩ := h3
  obtain ⟨x, s4, h4, h⟩ := SM.bind_ok_inv h
  have hx : getRange bytes r1.start stop = some x ∧ r1 = s4 := by
    cases hg : getRange bytes r1.start stop <;> rw [hg] at h4
    · simp [SM.lift_run] at h4
    · simp only [SM.pure_run, Prod.mk.injEq, Out.ok.injEq] at h4
      exact ⟨by rw [h4.1], h4.2⟩
  obtain ⟨hx, rfl⟩ := hx
  obtain ⟨start, s5, h5, h⟩ := SM.bind_ok_inv h
  rw [SM.lift_run, Prod.mk.injEq] at h5
  obtain ⟨h5, rfl⟩ := h5
  simp only [SM.bind_run, SM.set_run, SM.pure_run, Prod.mk.injEq, Out.ok.injEq] at h
  refine ⟨len, r1, rem, stop, x, h1, h2, by omega, by assumption, h3, hx, h.1.symm, ?_, ?_⟩
  · rw [← h.2]; exact h5
  · rw [← h.2]; exact (read_varint32_in h1).2.2

theorem KeepsLimit.read_packed_fixed (M : MemTy α) :
    KeepsLimit (BytesReader.read_packed_fixed T M) := by
  intro bytes r a r' h
  obtain ⟨_, _, _, _, _, _, _, _, _, _, _, _, _, h⟩ := read_packed_fixed_inv h
  exact h

/-! ### scanning and `IsVarint` -/

theorem scan_isVarint {n : Nat} {l g : Bytes} (hn : n ≤ 10) (h : scan n l = .done g) :
    ∃ rest, l = g ++ rest ∧ ∃ (conts : Bytes) (b : Byte), g = conts ++ [b] ∧ conts.length + 1 ≤ n ∧
      (∀ c ∈ conts, lastByte c = false) ∧ lastByte b = true := by
  induction n generalizing l g with
  | zero => simp [scan] at h
  | succ n ih =>
    rcases l with _ | ⟨b, l⟩
    · simp [scan] at h
    simp only [scan] at h
    by_cases hb : lastByte b = true
    · rw [if_pos hb] at h
      simp only [Scan.done.injEq] at h; subst h
      exact ⟨l, rfl, [], b, rfl, by simp, by simp, hb⟩
    · rw [if_neg hb] at h
      cases hs : scan n l with
      | done g' =>
        rw [hs] at h; simp only [Scan.done.injEq] at h; subst h
        obtain ⟨rest, e, c, x, e2, hl, hc, hx⟩ := ih (by omega) hs
        exact ⟨rest, by rw [e]; rfl, b :: c, x, by rw [e2]; rfl, by simp; omega, by
          intro y hy
          rcases List.mem_cons.mp hy with rfl | hy
          · simpa using hb
          · exact hc y hy, hx⟩
      | tooLong k => rw [hs] at h; simp at h
      | short k => rw [hs] at h; simp at h

theorem scan_of_isVarint {g : Bytes} (h : IsVarint g) (rest : Bytes) :
    scan 10 (g ++ rest) = .done g := by
  obtain ⟨c, b, rfl, hl, hc, hb⟩ := h
  rw [List.append_assoc]
  exact scan_done hc hb (by omega)

/-- A varint in front is read as its value. -/
theorem reads_isVarint64 {g : Bytes} (h : IsVarint g) :
    ReadsAs T read_varint64 g (BitVec.ofNat 64 (varintVal g)) := by
  intro pre suf fin _ _
  rw [read_varint64_scan, drop_pre, scan_of_isVarint h]
  rfl

theorem reads_isVarint32 {g : Bytes} (h : IsVarint g) :
    ReadsAs T read_varint32 g (BitVec.ofNat 32 (varintVal g)) := by
  intro pre suf fin _ _
  rw [read_varint32_scan, drop_pre, scan_of_isVarint h]
  rfl

theorem IsVarint.of_canonical {n : Nat} (h : n < 2 ^ 64) : IsVarint (varint n) := by
  have h1 := scan_varint n 10 [] (length_varint_64 h)
  obtain ⟨rest, e, c, b, e2, hl, hc, hb⟩ := scan_isVarint (Nat.le_refl _) h1
  exact ⟨c, b, e2, by omega, hc, hb⟩

/-- The wire type of a tag. -/
theorem wireType_eq (tag : BitVec 32) :
    ((tag &&& 0x7#32).setWidth 8).toNat = tag.toNat % 8 := by
  have h : (tag &&& 0x7#32).toNat = tag.toNat % 8 := by
    rw [BitVec.toNat_and]
    exact Nat.and_two_pow_sub_one_eq_mod tag.toNat 3
  rw [BitVec.toNat_setWidth, h]
  omega

theorem wireType_is {tag : BitVec 32} {k : Nat} (hk : k < 8) :
    (tag &&& 0x7#32).setWidth 8 = BitVec.ofNat 8 k ↔ tag.toNat % 8 = k := by
  constructor
  · intro h
    have := congrArg BitVec.toNat h
    rw [wireType_eq, BitVec.toNat_ofNat] at this
    omega
  · intro h
    apply BitVec.eq_of_toNat_eq
    rw [wireType_eq, BitVec.toNat_ofNat, h]
    omega

end
end QP
