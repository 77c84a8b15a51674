import Verif.Spec.Reads
import Verif.Proofs.Reader
/-! Closure of `Orderly` and `Local` under everything the reader offers. -/

namespace QP
open Spec BytesReader

section
variable {T : Target} {α β : Type}

/-- Both at once. -/
structure Good (T : Target) {α : Type} (p : Bytes → RM α) : Prop where
  orderly : Orderly T p
  isLocal : Local T p

theorem Good.pure (a : α) : Good T (fun _ => (Pure.pure a : RM α)) where
  orderly := by
    intro bytes r _ hr o r' h
    simp only [SM.pure_run, Prod.mk.injEq] at h
    obtain ⟨rfl, rfl⟩ := h
    exact ⟨Nat.le_refl _, hr, fun _ => rfl⟩
  isLocal := by intro pre rest r _ _; simp only [SM.pure_run]

theorem Good.lift (o : Out α) : Good T (fun _ => (SM.lift o : RM α)) where
  orderly := by
    intro bytes r _ hr o r' h
    simp only [SM.lift_run, Prod.mk.injEq] at h
    obtain ⟨rfl, rfl⟩ := h
    exact ⟨Nat.le_refl _, hr, fun _ => rfl⟩
  isLocal := by intro pre rest r _ _; simp only [SM.lift_run]

theorem Good.throw (e : Error) : Good T (fun _ => (SM.throw e : RM α)) := Good.lift (.err e)

theorem Good.okOr (o : Option α) (e : Error) : Good T (fun _ => (SM.okOr o e : RM α)) := by
  cases o with
  | none => exact Good.lift (.err e)
  | some a => exact Good.pure a

theorem Good.bind {p : Bytes → RM α} {q : α → Bytes → RM β} (hp : Good T p)
    (hq : ∀ a, Good T (q a)) : Good T (fun bs => do let a ← p bs; q a bs) where
  orderly := by
    intro bytes r hR hr o r' h
    rcases hpr : p bytes r with ⟨o1, r1⟩
    obtain ⟨h1, h2, h3⟩ := hp.orderly bytes r hR hr o1 r1 hpr
    simp only [SM.bind_run, hpr] at h
    cases o1 with
    | ok a =>
      simp only at h
      obtain ⟨g1, g2, g3⟩ := (hq a).orderly bytes r1 hR h2 o r' h
      exact ⟨by omega, g2, fun ho => by rw [g3 ho, h3 ⟨a, rfl⟩]⟩
    | err e => simp only [Prod.mk.injEq] at h; obtain ⟨rfl, rfl⟩ := h; exact ⟨h1, h2, by rintro ⟨_, h⟩; cases h⟩
    | panic => simp only [Prod.mk.injEq] at h; obtain ⟨rfl, rfl⟩ := h; exact ⟨h1, h2, by rintro ⟨_, h⟩; cases h⟩
    | ub => simp only [Prod.mk.injEq] at h; obtain ⟨rfl, rfl⟩ := h; exact ⟨h1, h2, by rintro ⟨_, h⟩; cases h⟩
    | timeout => simp only [Prod.mk.injEq] at h; obtain ⟨rfl, rfl⟩ := h; exact ⟨h1, h2, by rintro ⟨_, h⟩; cases h⟩
  isLocal := by
    intro pre rest r hR hr
    have h1 := hp.isLocal pre rest r hR hr
    have hR' : Roomy T rest := by unfold Roomy at *; simp only [List.length_append] at hR; omega
    rcases hpr : p rest r with ⟨o1, r1⟩
    have h2 := (hp.orderly rest r hR' hr o1 r1 hpr).2.1
    rw [hpr] at h1
    simp only [SM.bind_run, h1, hpr]
    cases o1 with
    | ok a => exact (hq a).isLocal pre rest r1 hR h2
    | err e => rfl
    | panic => rfl
    | ub => rfl
    | timeout => rfl

theorem Good.ite {c : Prop} [Decidable c] {p q : Bytes → RM α} (hp : Good T p) (hq : Good T q) :
    Good T (fun bs => if c then p bs else q bs) := by
  by_cases h : c
  · simp only [if_pos h]; exact hp
  · simp only [if_neg h]; exact hq

theorem Good.congr {p q : Bytes → RM α} (hp : Good T p) (h : ∀ bs, q bs = p bs) : Good T q := by
  have : q = p := funext h
  rw [this]; exact hp

theorem Good.read_u8 : Good T read_u8 where
  orderly := by
    intro bytes r _ hr o r' h
    unfold InRange at *
    rcases hd : bytes.drop r.start with _ | ⟨b, l⟩
    · rw [read_u8_nil hd] at h
      obtain ⟨rfl, rfl⟩ := Prod.mk.injEq _ _ _ _ ▸ h
      exact ⟨Nat.le_refl _, hr, fun _ => rfl⟩
    · rw [read_u8_cons hd] at h
      obtain ⟨rfl, rfl⟩ := Prod.mk.injEq _ _ _ _ ▸ h
      have : r.start < bytes.length := by
        have := congrArg List.length hd
        simp at this; omega
      exact ⟨by simp, by simp; omega, fun _ => rfl⟩
  isLocal := by
    intro pre rest r _ _
    have e : (pre ++ rest).drop (r.shift pre.length).start = rest.drop r.start := by
      simp [BytesReader.shift, ← List.drop_drop]
    rcases hd : rest.drop r.start with _ | ⟨b, l⟩
    · rw [read_u8_nil hd, read_u8_nil (e.trans hd)]
    · rw [read_u8_cons hd, read_u8_cons (e.trans hd)]
      simp [BytesReader.shift, Nat.add_assoc]

theorem Good.read_varint32 : Good T read_varint32 := by
  have hx : ∀ n (r : BitVec 32), Good T (fun bs => discardExtra bs r n) := by
    intro n
    induction n with
    | zero => intro r; exact Good.throw _
    | succ n ih => intro r; exact Good.bind Good.read_u8 (fun b => Good.ite (Good.pure _) (ih _))
  unfold BytesReader.read_varint32
  iterate 5
    refine Good.bind Good.read_u8 (fun b => Good.ite (Good.pure _) ?_)
  exact hx _ _

theorem Good.read_varint64 : Good T read_varint64 := by
  unfold BytesReader.read_varint64
  iterate 10
    refine Good.bind Good.read_u8 (fun b => Good.ite (Good.pure _) ?_)
  exact Good.throw _

theorem getRange_shift (pre rest : Bytes) (a b : Nat) :
    getRange (pre ++ rest) (pre.length + a) (pre.length + b) = getRange rest a b := by
  unfold getRange
  by_cases h : a ≤ b ∧ b ≤ rest.length
  · rw [if_pos h, if_pos (by simp; omega), ← List.drop_drop, List.drop_left,
      show pre.length + b - (pre.length + a) = b - a by omega]
  · rw [if_neg h, if_neg (by simp; omega)]

theorem Good.read_fixed {len : Nat} (hlen : len ≤ 2 ^ 32) (f : Bytes → α) :
    Good T (fun bs => BytesReader.read_fixed T bs len f) where
  orderly := by
    intro bytes r hR hr o r' h
    unfold InRange Roomy at *
    simp only [BytesReader.read_fixed, SM.bind_run, SM.get_run, SM.lift_run,
      usizeAdd_ok (T := T) (a := r.start) (b := len) (by omega), SM.okOr_run] at h
    cases hg : getRange bytes r.start (r.start + len) with
    | none =>
      rw [hg] at h
      obtain ⟨rfl, rfl⟩ := Prod.mk.injEq _ _ _ _ ▸ h
      exact ⟨Nat.le_refl _, hr, fun _ => rfl⟩
    | some c =>
      rw [hg] at h
      obtain ⟨rfl, rfl⟩ := Prod.mk.injEq _ _ _ _ ▸ h
      unfold getRange at hg
      split at hg
      · exact ⟨by simp, by simp only; omega, fun _ => rfl⟩
      · simp at hg
  isLocal := by
    intro pre rest r hR hr
    unfold InRange Roomy at *
    simp only [List.length_append] at hR
    simp only [BytesReader.read_fixed, SM.bind_run, SM.get_run, SM.lift_run, BytesReader.shift,
      usizeAdd_ok (T := T) (a := r.start) (b := len) (by omega),
      usizeAdd_ok (T := T) (a := pre.length + r.start) (b := len) (by omega), SM.okOr_run]
    rw [Nat.add_assoc, getRange_shift]
    cases hg : getRange rest r.start (r.start + len) with
    | none => rfl
    | some c => rfl

/-- Good when entered with the position not beyond the limit, as the body of a nested read is. -/
structure GoodEntry (T : Target) {α : Type} (p : Bytes → RM α) : Prop where
  orderly : ∀ bytes r, Roomy T bytes → r.InRange bytes → r.start ≤ r.fin →
    ∀ o r', p bytes r = (o, r') →
    r.start ≤ r'.start ∧ r'.InRange bytes ∧ ((∃ a, o = .ok a) → r'.fin = r.fin)
  isLocal : ∀ pre rest r, Roomy T (pre ++ rest) → r.InRange rest → r.start ≤ r.fin →
    p (pre ++ rest) (r.shift pre.length) = ((p rest r).1, (p rest r).2.shift pre.length)

theorem Good.entry {p : Bytes → RM α} (hp : Good T p) : GoodEntry T p :=
  ⟨fun b r hR hr _ => hp.orderly b r hR hr, fun b c r hR hr _ => hp.isLocal b c r hR hr⟩

theorem GoodEntry.read_to_end : GoodEntry T (fun _ => read_to_end) where
  orderly := by
    intro bytes r _ hr hle o r' h
    simp only [BytesReader.read_to_end, SM.bind_run, SM.get_run, SM.set_run] at h
    obtain ⟨rfl, rfl⟩ := Prod.mk.injEq _ _ _ _ ▸ h
    unfold InRange at *
    exact ⟨hle, by simp only; omega, fun _ => rfl⟩
  isLocal := by
    intro pre rest r _ _ _
    simp only [BytesReader.read_to_end, SM.bind_run, SM.get_run, SM.set_run, BytesReader.shift]

theorem GoodEntry.map {p : Bytes → RM α} (hp : GoodEntry T p) (f : α → β) :
    GoodEntry T (fun bs => do let a ← p bs; Pure.pure (f a)) where
  orderly := by
    intro bytes r hR hr hle o r' h
    rcases hpr : p bytes r with ⟨o1, r1⟩
    obtain ⟨h1, h2, h3⟩ := hp.orderly bytes r hR hr hle o1 r1 hpr
    simp only [SM.bind_run, hpr] at h
    cases o1 <;> simp only [SM.pure_run] at h <;> obtain ⟨rfl, rfl⟩ := Prod.mk.injEq _ _ _ _ ▸ h
    · exact ⟨h1, h2, fun _ => h3 ⟨_, rfl⟩⟩
    all_goals exact ⟨h1, h2, by rintro ⟨_, h⟩; cases h⟩
  isLocal := by
    intro pre rest r hR hr hle
    have h1 := hp.isLocal pre rest r hR hr hle
    rcases hpr : p rest r with ⟨o1, r1⟩
    rw [hpr] at h1
    simp only [SM.bind_run, h1, hpr]
    cases o1 <;> rfl

theorem scan_done_length {n : Nat} {l g : Bytes} (h : scan n l = .done g) :
    0 < g.length ∧ g.length ≤ l.length := by
  induction n generalizing l g with
  | zero => simp [scan] at h
  | succ n ih =>
    rcases l with _ | ⟨b, l⟩
    · simp [scan] at h
    simp only [scan] at h
    split at h
    · simp only [Scan.done.injEq] at h; subst h; simp
    · cases hs : scan n l with
      | done g' =>
        rw [hs] at h; simp only [Scan.done.injEq] at h; subst h
        have := ih hs
        simp; omega
      | tooLong k => rw [hs] at h; simp at h
      | short k => rw [hs] at h; simp at h

/-- After a successful varint the position is inside the buffer. -/
theorem read_varint32_in {bytes : Bytes} {r r' : BytesReader} {v : BitVec 32}
    (h : BytesReader.read_varint32 bytes r = (.ok v, r')) :
    r.start < r'.start ∧ r'.start ≤ bytes.length ∧ r'.fin = r.fin := by
  rw [read_varint32_scan] at h
  cases hs : scan 10 (bytes.drop r.start) with
  | done g =>
    rw [hs] at h
    obtain ⟨_, rfl⟩ := Prod.mk.injEq _ _ _ _ ▸ h
    obtain ⟨h1, h2⟩ := scan_done_length hs
    simp only [List.length_drop] at h2
    exact ⟨by simp only; omega, by simp only; omega, rfl⟩
  | tooLong k => rw [hs] at h; simp [scanOut32] at h
  | short k => rw [hs] at h; simp [scanOut32] at h

theorem read_varint64_in {bytes : Bytes} {r r' : BytesReader} {v : BitVec 64}
    (h : BytesReader.read_varint64 bytes r = (.ok v, r')) :
    r.start < r'.start ∧ r'.start ≤ bytes.length ∧ r'.fin = r.fin := by
  rw [read_varint64_scan] at h
  cases hs : scan 10 (bytes.drop r.start) with
  | done g =>
    rw [hs] at h
    obtain ⟨_, rfl⟩ := Prod.mk.injEq _ _ _ _ ▸ h
    obtain ⟨h1, h2⟩ := scan_done_length hs
    simp only [List.length_drop] at h2
    exact ⟨by simp only; omega, by simp only; omega, rfl⟩
  | tooLong k => rw [hs] at h; simp [scanOut64] at h
  | short k => rw [hs] at h; simp [scanOut64] at h

theorem read_len_orderly {p : Bytes → RM α} (hp : GoodEntry T p) {len : Nat} (hlen : len < 2 ^ 32)
    {bytes : Bytes} {r : BytesReader} (hR : Roomy T bytes) (hr : r.InRange bytes)
    (hin : r.start ≤ bytes.length) {o : Out α} {r' : BytesReader}
    (h : read_len T (p bytes) len r = (o, r')) :
    r.start ≤ r'.start ∧ r'.InRange bytes ∧ ((∃ a, o = .ok a) → r'.fin = r.fin) := by
  have hR0 := hR
  unfold Roomy at hR
  simp only [read_len, SM.bind_run, SM.get_run, SM.lift_run,
      usizeAdd_ok (T := T) (a := r.start) (b := len) (by omega), SM.set_run] at h
  rcases hpr : p bytes ⟨r.start, r.start + len⟩ with ⟨o1, r1⟩
  obtain ⟨h1, h2, h3⟩ := hp.orderly bytes ⟨r.start, r.start + len⟩ hR0
    (by unfold InRange; simp only; omega) (Nat.le_add_right _ _) o1 r1 hpr
  rw [hpr] at h
  cases o1 with
  | ok a =>
    have h3 := h3 ⟨a, rfl⟩
    obtain ⟨rfl, rfl⟩ := Prod.mk.injEq _ _ _ _ ▸ h
    unfold InRange at *
    simp only at h1 h2 h3 ⊢
    exact ⟨by omega, by omega, fun _ => trivial⟩
  | err e => obtain ⟨rfl, rfl⟩ := Prod.mk.injEq _ _ _ _ ▸ h; exact ⟨h1, h2, by rintro ⟨_, h⟩; cases h⟩
  | panic => obtain ⟨rfl, rfl⟩ := Prod.mk.injEq _ _ _ _ ▸ h; exact ⟨h1, h2, by rintro ⟨_, h⟩; cases h⟩
  | ub => obtain ⟨rfl, rfl⟩ := Prod.mk.injEq _ _ _ _ ▸ h; exact ⟨h1, h2, by rintro ⟨_, h⟩; cases h⟩
  | timeout => obtain ⟨rfl, rfl⟩ := Prod.mk.injEq _ _ _ _ ▸ h; exact ⟨h1, h2, by rintro ⟨_, h⟩; cases h⟩

theorem read_len_local {p : Bytes → RM α} (hp : GoodEntry T p) {len : Nat} (hlen : len < 2 ^ 32)
    {pre rest : Bytes} {r : BytesReader} (hR : Roomy T (pre ++ rest))
    (hin : r.start ≤ rest.length) :
    read_len T (p (pre ++ rest)) len (r.shift pre.length) =
      ((read_len T (p rest) len r).1, (read_len T (p rest) len r).2.shift pre.length) := by
  have hR0 := hR
  unfold Roomy at hR
  simp only [List.length_append] at hR
  have hl := hp.isLocal pre rest ⟨r.start, r.start + len⟩ hR0 (by unfold InRange; simp only; omega)
    (Nat.le_add_right _ _)
  simp only [read_len, SM.bind_run, SM.get_run, SM.lift_run, BytesReader.shift,
      usizeAdd_ok (T := T) (a := r.start) (b := len) (by omega),
      usizeAdd_ok (T := T) (a := pre.length + r.start) (b := len) (by omega), SM.set_run] at hl ⊢
  rw [Nat.add_assoc, hl]
  rcases p rest ⟨r.start, r.start + len⟩ with ⟨o, r1⟩
  cases o <;> rfl

theorem Good.read_len_varint {p : Bytes → RM α} (hp : GoodEntry T p) :
    Good T (fun bs => BytesReader.read_len_varint T bs (p bs)) where
  orderly := by
    intro bytes r hR hr o r' h
    rcases hv : BytesReader.read_varint32 bytes r with ⟨o1, r1⟩
    obtain ⟨g1, g2, g3⟩ := Good.read_varint32.orderly bytes r hR hr o1 r1 hv
    simp only [BytesReader.read_len_varint, SM.bind_run, hv] at h
    cases o1 with
    | ok v =>
      obtain ⟨q1, q2, q3⟩ := read_len_orderly hp v.isLt hR g2 (read_varint32_in hv).2.1 h
      exact ⟨by omega, q2, fun ho => by rw [q3 ho, g3 ⟨v, rfl⟩]⟩
    | err e => obtain ⟨rfl, rfl⟩ := Prod.mk.injEq _ _ _ _ ▸ h; exact ⟨g1, g2, by rintro ⟨_, h⟩; cases h⟩
    | panic => obtain ⟨rfl, rfl⟩ := Prod.mk.injEq _ _ _ _ ▸ h; exact ⟨g1, g2, by rintro ⟨_, h⟩; cases h⟩
    | ub => obtain ⟨rfl, rfl⟩ := Prod.mk.injEq _ _ _ _ ▸ h; exact ⟨g1, g2, by rintro ⟨_, h⟩; cases h⟩
    | timeout => obtain ⟨rfl, rfl⟩ := Prod.mk.injEq _ _ _ _ ▸ h; exact ⟨g1, g2, by rintro ⟨_, h⟩; cases h⟩
  isLocal := by
    intro pre rest r hR hr
    have h1 := Good.read_varint32.isLocal pre rest r hR hr
    have hR' : Roomy T rest := by unfold Roomy at *; simp only [List.length_append] at hR; omega
    rcases hpr : BytesReader.read_varint32 rest r with ⟨o1, r1⟩
    have h2 := (Good.read_varint32.orderly rest r hR' hr o1 r1 hpr).2.1
    rw [hpr] at h1
    simp only [BytesReader.read_len_varint, SM.bind_run, h1, hpr]
    cases o1 with
    | ok a => exact read_len_local hp a.isLt hR (read_varint32_in hpr).2.1
    | err e => rfl
    | panic => rfl
    | ub => rfl
    | timeout => rfl

theorem Good.getSelf : Good T getSelf where
  orderly := by
    intro bytes r hR hr o r' h
    simp only [BytesReader.getSelf, SM.bind_run, SM.get_run, SM.okOr_run] at h
    cases hg : getRange bytes r.start r.fin <;> rw [hg] at h <;>
      obtain ⟨rfl, rfl⟩ := Prod.mk.injEq _ _ _ _ ▸ h <;>
      exact ⟨Nat.le_refl _, hr, fun _ => rfl⟩
  isLocal := by
    intro pre rest r hR hr
    simp only [BytesReader.getSelf, SM.bind_run, SM.get_run, SM.okOr_run, BytesReader.shift,
      getRange_shift]
    cases getRange rest r.start r.fin <;> rfl

theorem Good.whileNotEof {A : Type} {step : Bytes → A → RM A} (hs : ∀ a, Good T (fun b => step b a))
    (fuel : Nat) (acc : A) : Good T (fun b => whileNotEof (step b) fuel acc) := by
  induction fuel generalizing acc with
  | zero => exact Good.lift _
  | succ n ih =>
    have hb : Good T (fun b => do let acc ← step b acc; BytesReader.whileNotEof (step b) n acc) :=
      Good.bind (hs acc) (fun a => ih a)
    constructor
    · intro bytes r hR hr o r' h
      simp only [BytesReader.whileNotEof, SM.bind_run, SM.get_run, SM.ite_run] at h
      by_cases he : r.is_eof = true
      · rw [if_pos he] at h
        exact (Good.pure acc).orderly bytes r hR hr o r' h
      · rw [if_neg he] at h
        exact hb.orderly bytes r hR hr o r' h
    · intro pre rest r hR hr
      have he : (r.shift pre.length).is_eof = r.is_eof := by
        simp only [is_eof, BytesReader.shift]
        by_cases h : r.start = r.fin
        · simp [h]
        · rw [beq_eq_false_iff_ne.mpr h, beq_eq_false_iff_ne.mpr (by omega)]
      simp only [BytesReader.whileNotEof, SM.bind_run, SM.get_run, SM.ite_run, he]
      by_cases he : r.is_eof = true
      · rw [if_pos he, if_pos he]; rfl
      · rw [if_neg he, if_neg he]
        exact hb.isLocal pre rest r hR hr

/-- `skip` needs overflow checks: see C23 for what happens without them. -/
theorem Good.skip (hT : T.overflowChecks = true) (n : Nat) :
    Good T (fun _ => BytesReader.skip T n) where
  orderly := by
    intro bytes r hR hr o r' h
    unfold InRange Roomy at *
    simp only [BytesReader.skip, SM.bind_run, SM.get_run, SM.lift_run] at h
    by_cases hle : r.start ≤ r.fin
    · rw [usizeSub_ok hle] at h
      simp only [SM.ite_run] at h
      by_cases hn : r.fin - r.start < n
      · rw [if_pos hn] at h
        obtain ⟨rfl, rfl⟩ := Prod.mk.injEq _ _ _ _ ▸ h
        exact ⟨Nat.le_refl _, hr, fun _ => rfl⟩
      · rw [if_neg hn] at h
        simp only [SM.bind_run, SM.lift_run, usizeAdd_ok (T := T) (a := r.start) (b := n) (by omega),
          SM.set_run] at h
        obtain ⟨rfl, rfl⟩ := Prod.mk.injEq _ _ _ _ ▸ h
        exact ⟨by simp, by simp only; omega, fun _ => rfl⟩
    · have : T.usizeSub r.fin r.start = .panic := by
        unfold Target.usizeSub; rw [if_neg hle, if_pos hT]
      rw [this] at h
      obtain ⟨rfl, rfl⟩ := Prod.mk.injEq _ _ _ _ ▸ h
      exact ⟨Nat.le_refl _, hr, fun _ => rfl⟩
  isLocal := by
    intro pre rest r hR hr
    unfold InRange Roomy at *
    simp only [List.length_append] at hR
    simp only [BytesReader.skip, SM.bind_run, SM.get_run, SM.lift_run, BytesReader.shift]
    by_cases hle : r.start ≤ r.fin
    · rw [usizeSub_ok hle, usizeSub_ok (by omega),
        show pre.length + r.fin - (pre.length + r.start) = r.fin - r.start by omega]
      simp only [SM.ite_run]
      by_cases hn : r.fin - r.start < n
      · rw [if_pos hn, if_pos hn]; rfl
      · rw [if_neg hn, if_neg hn]
        simp only [SM.bind_run, SM.lift_run, usizeAdd_ok (T := T) (a := r.start) (b := n) (by omega),
          usizeAdd_ok (T := T) (a := pre.length + r.start) (b := n) (by omega), SM.set_run]
        simp only [Nat.add_assoc]
    · have h1 : T.usizeSub r.fin r.start = .panic := by
        unfold Target.usizeSub; rw [if_neg hle, if_pos hT]
      have h2 : T.usizeSub (pre.length + r.fin) (pre.length + r.start) = .panic := by
        unfold Target.usizeSub; rw [if_neg (by omega), if_pos hT]
      rw [h1, h2]

theorem Good.read_unknown (hT : T.overflowChecks = true) (tag : BitVec 32) :
    Good T (fun bs => BytesReader.read_unknown T bs tag) := by
  unfold BytesReader.read_unknown
  refine Good.ite (Good.bind Good.read_varint64 (fun _ => Good.pure ())) ?_
  refine Good.ite (Good.skip hT 8) ?_
  refine Good.ite (Good.skip hT 4) ?_
  refine Good.ite (Good.bind Good.read_varint64 (fun v => Good.ite (Good.skip hT _) (Good.throw _))) ?_
  exact Good.ite (Good.throw _) (Good.throw _)

theorem Good.read_packed_fixed (hT : T.overflowChecks = true) (M : MemTy α) :
    Good T (BytesReader.read_packed_fixed T M) := by
  have key : ∀ len : BitVec 32, Good T (fun (bytes : Bytes) => (do
    let rem ← BytesReader.len T
    if rem < len.toNat then SM.throw .UnexpectedEndOfBuffer
    else if M.size = 0 then SM.lift .panic
    else do
      let n := len.toNat / M.size
      let r ← SM.get
      let stop ← SM.lift (T.usizeAdd r.start (n * M.size))
      let target ← (match getRange bytes r.start stop with
        | some x => Pure.pure x
        | none => SM.lift .panic)
      let start ← SM.lift (T.usizeAdd r.start len.toNat)
      SM.set { r with start := start }
      Pure.pure (PackedFixed.borrowed target) : RM (PackedFixed α))) := by
    intro len
    have hlen := len.isLt
    have hdm := Nat.div_mul_le_self len.toNat M.size
    constructor
    · intro bytes r hR hr o r' h
      unfold InRange Roomy at *
      simp only [BytesReader.len, SM.bind_run, SM.get_run, SM.lift_run] at h
      by_cases hle : r.start ≤ r.fin
      · rw [usizeSub_ok hle] at h
        simp only [SM.ite_run] at h
        by_cases hn : r.fin - r.start < len.toNat
        · rw [if_pos hn] at h
          obtain ⟨rfl, rfl⟩ := Prod.mk.injEq _ _ _ _ ▸ h
          exact ⟨Nat.le_refl _, hr, fun _ => rfl⟩
        rw [if_neg hn] at h
        by_cases hz : M.size = 0
        · rw [if_pos hz] at h
          obtain ⟨rfl, rfl⟩ := Prod.mk.injEq _ _ _ _ ▸ h
          exact ⟨Nat.le_refl _, hr, fun _ => rfl⟩
        rw [if_neg hz] at h
        simp only [SM.bind_run, SM.get_run, SM.lift_run,
          usizeAdd_ok (T := T) (a := r.start) (b := len.toNat / M.size * M.size) (by omega),
          usizeAdd_ok (T := T) (a := r.start) (b := len.toNat) (by omega)] at h
        cases hg : getRange bytes r.start (r.start + len.toNat / M.size * M.size) <;> rw [hg] at h <;>
          obtain ⟨rfl, rfl⟩ := Prod.mk.injEq _ _ _ _ ▸ h
        · exact ⟨Nat.le_refl _, hr, fun _ => rfl⟩
        · exact ⟨by simp, by simp only; omega, fun _ => rfl⟩
      · have : T.usizeSub r.fin r.start = .panic := by
          unfold Target.usizeSub; rw [if_neg hle, if_pos hT]
        rw [this] at h
        obtain ⟨rfl, rfl⟩ := Prod.mk.injEq _ _ _ _ ▸ h
        exact ⟨Nat.le_refl _, hr, fun _ => rfl⟩
    · intro pre rest r hR hr
      unfold InRange Roomy at *
      simp only [List.length_append] at hR
      simp only [BytesReader.len, SM.bind_run, SM.get_run, SM.lift_run, BytesReader.shift]
      by_cases hle : r.start ≤ r.fin
      · rw [usizeSub_ok hle, usizeSub_ok (by omega),
          show pre.length + r.fin - (pre.length + r.start) = r.fin - r.start by omega]
        simp only [SM.ite_run]
        by_cases hn : r.fin - r.start < len.toNat
        · rw [if_pos hn, if_pos hn]; rfl
        rw [if_neg hn, if_neg hn]
        by_cases hz : M.size = 0
        · rw [if_pos hz, if_pos hz]; rfl
        rw [if_neg hz, if_neg hz]
        simp only [SM.bind_run, SM.get_run, SM.lift_run,
          usizeAdd_ok (T := T) (a := r.start) (b := len.toNat / M.size * M.size) (by omega),
          usizeAdd_ok (T := T) (a := r.start) (b := len.toNat) (by omega),
          usizeAdd_ok (T := T) (a := pre.length + r.start) (b := len.toNat / M.size * M.size) (by omega),
          usizeAdd_ok (T := T) (a := pre.length + r.start) (b := len.toNat) (by omega)]
        rw [Nat.add_assoc, getRange_shift]
        cases getRange rest r.start (r.start + len.toNat / M.size * M.size) with
        | none => rfl
        | some c => simp only [SM.pure_run, SM.set_run, Nat.add_assoc]
      · have h1 : T.usizeSub r.fin r.start = .panic := by
          unfold Target.usizeSub; rw [if_neg hle, if_pos hT]
        have h2 : T.usizeSub (pre.length + r.fin) (pre.length + r.start) = .panic := by
          unfold Target.usizeSub; rw [if_neg (by omega), if_pos hT]
        rw [h1, h2]
  exact Good.bind Good.read_varint32 key

end
end QP
