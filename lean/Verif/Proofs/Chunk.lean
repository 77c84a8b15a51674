import Verif.Proofs.GenGood
import Verif.Props.Reader
/-! Whatever a successful read consumed, it reads again anywhere else. -/

set_option linter.unusedVariables false

namespace QP
open Spec BytesReader

/-- The bytes from position `s` up to position `e`. -/
def slice (b : Bytes) (s e : Nat) : Bytes := (b.drop s).take (e - s)

theorem slice_length {b : Bytes} {s e : Nat} (he : e ≤ b.length) : (slice b s e).length = e - s := by
  unfold slice; rw [List.length_take, List.length_drop]; omega

theorem slice_append {b : Bytes} {s m e : Nat} (h1 : s ≤ m) (h2 : m ≤ e) :
    slice b s e = slice b s m ++ slice b m e := by
  unfold slice
  have : b.drop m = (b.drop s).drop (m - s) := by rw [List.drop_drop]; congr 1; omega
  rw [this, ← List.take_add]; congr 1; omega

theorem slice_self (b : Bytes) (s : Nat) : slice b s s = [] := by simp [slice]

theorem slice_all (b : Bytes) : slice b 0 b.length = b := by simp [slice]

section
variable {T : Target} {α β : Type}

/-- A read is determined by the bytes it consumes. -/
structure Chunk (T : Target) {α : Type} (p : Bytes → RM α) : Prop extends Good T p where
  chunk : ∀ b s f a r', Roomy T b → InRange b ⟨s, f⟩ → p b ⟨s, f⟩ = (.ok a, r') →
    r'.start ≤ b.length → ReadsAs T p (slice b s r'.start) a

/-- The same for the body of a nested read, which may use everything up to the limit. -/
structure ChunkEntry (T : Target) {α : Type} (p : Bytes → RM α) : Prop extends GoodEntry T p where
  chunk : ∀ b s f a r', Roomy T b → s ≤ f → f ≤ b.length → p b ⟨s, f⟩ = (.ok a, r') →
    ∀ pre suf : Bytes, (pre ++ (slice b s f ++ suf)).length < 2 ^ T.usizeBits →
      ∃ s', p (pre ++ (slice b s f ++ suf)) ⟨pre.length, pre.length + (slice b s f).length⟩
        = (.ok a, ⟨s', pre.length + (slice b s f).length⟩)

theorem Chunk.pure (a : α) : Chunk T (fun _ => (Pure.pure a : RM α)) where
  toGood := Good.pure a
  chunk := by
    intro b s f a' r' _ _ h _
    simp only [SM.pure_run, Prod.mk.injEq, Out.ok.injEq] at h
    obtain ⟨rfl, rfl⟩ := h
    rw [slice_self]; exact ReadsAs.pure a

theorem Chunk.lift (o : Out α) : Chunk T (fun _ => (SM.lift o : RM α)) := by
  cases o with
  | ok a => exact Chunk.pure a
  | _ =>
    exact { toGood := Good.lift _, chunk := by
              intro b s f a' r' _ _ h _
              simp only [SM.lift_run, Prod.mk.injEq] at h
              cases h.1 }

theorem Chunk.throw (e : Error) : Chunk T (fun _ => (SM.throw e : RM α)) := Chunk.lift (.err e)

theorem Chunk.bind {p : Bytes → RM α} {q : α → Bytes → RM β} (hp : Chunk T p)
    (hq : ∀ a, Chunk T (q a)) : Chunk T (fun bs => do let a ← p bs; q a bs) where
  toGood := Good.bind hp.toGood (fun a => (hq a).toGood)
  chunk := by
    intro b s f c r' hR hr h hle
    obtain ⟨a, r1, h1, h2⟩ := SM.bind_ok_inv h
    obtain ⟨g1, g2, g3⟩ := hp.orderly b ⟨s, f⟩ hR hr _ _ h1
    obtain ⟨k1, k2, k3⟩ := (hq a).orderly b r1 hR g2 _ _ h2
    rw [slice_append (m := r1.start) g1 k1]
    exact ReadsAs.bind (hp.chunk b s f a r1 hR hr h1 (by omega))
      ((hq a).chunk b r1.start r1.fin c r' hR g2 h2 hle)

theorem Chunk.ite {c : Prop} [Decidable c] {p q : Bytes → RM α} (hp : Chunk T p) (hq : Chunk T q) :
    Chunk T (fun bs => if c then p bs else q bs) := by
  by_cases h : c
  · simp only [if_pos h]; exact hp
  · simp only [if_neg h]; exact hq

theorem Chunk.map {p : Bytes → RM α} (hp : Chunk T p) (f : α → β) :
    Chunk T (fun bs => do let a ← p bs; Pure.pure (f a)) := Chunk.bind hp (fun a => Chunk.pure (f a))

theorem Chunk.read_u8 : Chunk T read_u8 where
  toGood := Good.read_u8
  chunk := by
    intro b s f a r' _ _ h _
    rcases hd : b.drop s with _ | ⟨x, l⟩
    · rw [read_u8_nil (r := ⟨s, f⟩) hd] at h; simp at h
    · rw [read_u8_cons (r := ⟨s, f⟩) hd] at h
      simp only [Prod.mk.injEq, Out.ok.injEq] at h
      obtain ⟨rfl, rfl⟩ := h
      have : slice b s (s + 1) = [x] := by
        unfold slice; rw [hd, Nat.add_sub_cancel_left]; simp
      rw [this]; exact ReadsAs.u8 x

theorem scan_slice {b g : Bytes} {s : Nat} (h : scan 10 (b.drop s) = .done g) :
    IsVarint g ∧ slice b s (s + g.length) = g := by
  obtain ⟨rest, e, c, x, e2, hl, hc, hx⟩ := scan_isVarint (Nat.le_refl _) h
  refine ⟨⟨c, x, e2, by omega, hc, hx⟩, ?_⟩
  unfold slice
  rw [e, Nat.add_sub_cancel_left]; simp

/-- A successful varint read consumed a varint. -/
theorem read_varint32_inv {b : Bytes} {r r' : BytesReader} {v : BitVec 32}
    (h : BytesReader.read_varint32 b r = (.ok v, r')) :
    ∃ g, IsVarint g ∧ slice b r.start r'.start = g ∧ r'.start = r.start + g.length ∧ r'.fin = r.fin ∧
      v = BitVec.ofNat 32 (varintVal g) := by
  rw [read_varint32_scan] at h
  cases hs : scan 10 (b.drop r.start) with
  | done g =>
    rw [hs] at h
    simp only [scanOut32, Prod.mk.injEq, Out.ok.injEq] at h
    obtain ⟨rfl, rfl⟩ := h
    obtain ⟨h1, h2⟩ := scan_slice hs
    exact ⟨g, h1, h2, rfl, rfl, rfl⟩
  | tooLong k => rw [hs] at h; simp [scanOut32] at h
  | short k => rw [hs] at h; simp [scanOut32] at h

theorem read_varint64_inv {b : Bytes} {r r' : BytesReader} {v : BitVec 64}
    (h : BytesReader.read_varint64 b r = (.ok v, r')) :
    ∃ g, IsVarint g ∧ slice b r.start r'.start = g ∧ r'.start = r.start + g.length ∧ r'.fin = r.fin ∧
      v = BitVec.ofNat 64 (varintVal g) := by
  rw [read_varint64_scan] at h
  cases hs : scan 10 (b.drop r.start) with
  | done g =>
    rw [hs] at h
    simp only [scanOut64, Prod.mk.injEq, Out.ok.injEq] at h
    obtain ⟨rfl, rfl⟩ := h
    obtain ⟨h1, h2⟩ := scan_slice hs
    exact ⟨g, h1, h2, rfl, rfl, rfl⟩
  | tooLong k => rw [hs] at h; simp [scanOut64] at h
  | short k => rw [hs] at h; simp [scanOut64] at h

theorem Chunk.read_varint32 : Chunk T read_varint32 where
  toGood := Good.read_varint32
  chunk := by
    intro b s f a r' _ _ h _
    obtain ⟨g, h1, h2, _, _, rfl⟩ := read_varint32_inv h
    simp only at h2
    rw [h2]; exact reads_isVarint32 h1

theorem Chunk.read_varint64 : Chunk T read_varint64 where
  toGood := Good.read_varint64
  chunk := by
    intro b s f a r' _ _ h _
    obtain ⟨g, h1, h2, _, _, rfl⟩ := read_varint64_inv h
    simp only at h2
    rw [h2]; exact reads_isVarint64 h1

theorem Chunk.read_fixed {len : Nat} (hlen : len ≤ 2 ^ 32) (f : Bytes → α) :
    Chunk T (fun bs => BytesReader.read_fixed T bs len f) where
  toGood := Good.read_fixed hlen f
  chunk := by
    intro b s fi a r' hR hr h _
    unfold InRange Roomy at *
    simp only at hr
    simp only [BytesReader.read_fixed, SM.bind_run, SM.get_run, SM.lift_run,
      usizeAdd_ok (T := T) (a := s) (b := len) (by omega), SM.okOr_run] at h
    cases hg : getRange b s (s + len) with
    | none => rw [hg] at h; simp at h
    | some c =>
      rw [hg] at h
      simp only [SM.set_run, SM.pure_run, Prod.mk.injEq, Out.ok.injEq] at h
      obtain ⟨rfl, rfl⟩ := h
      unfold getRange at hg
      split at hg
      · rename_i hin
        simp only [Option.some.injEq] at hg
        have hs : slice b s (s + len) = c := hg
        have hl : c.length = len := by rw [← hs, slice_length hin.2]; omega
        rw [hs]; subst hl
        exact reads_fixed f c
      · cases hg

theorem Chunk.read_len_varint {p : Bytes → RM α} (hp : ChunkEntry T p) :
    Chunk T (fun bs => BytesReader.read_len_varint T bs (p bs)) where
  toGood := Good.read_len_varint hp.toGoodEntry
  chunk := by
    intro b s f a r' hR hr h hle
    obtain ⟨v, r1, h1, h2⟩ := SM.bind_ok_inv h
    obtain ⟨g, i1, i2, i3, i4, rfl⟩ := read_varint32_inv h1
    have hin := read_varint32_in h1
    have hv := (BitVec.ofNat 32 (varintVal g)).isLt
    have hR' := hR
    unfold Roomy at hR'
    obtain ⟨j1, r2, j3⟩ : r1.start + (BitVec.ofNat 32 (varintVal g)).toNat = r'.start ∧
        ∃ r2, p b ⟨r1.start, r'.start⟩ = (.ok a, r2) := by
      simp only [read_len, SM.bind_run, SM.get_run, SM.lift_run, usizeAdd_ok (T := T) (a := r1.start)
        (b := (BitVec.ofNat 32 (varintVal g)).toNat) (by omega), SM.set_run] at h2
      rcases hpr : p b ⟨r1.start, r1.start + (BitVec.ofNat 32 (varintVal g)).toNat⟩ with ⟨o, r2⟩
      have h3 := (hp.orderly b _ hR (by unfold InRange; simp only; omega) (by simp only; omega) o r2 hpr).2.2
      rw [hpr] at h2
      cases o with
      | ok c =>
        have h3 := h3 ⟨c, rfl⟩
        simp only [SM.pure_run, Prod.mk.injEq, Out.ok.injEq] at h2
        obtain ⟨rfl, rfl⟩ := h2
        simp only at h3 ⊢
        exact ⟨h3.symm, r2, by rw [h3]; exact hpr⟩
      | _ => simp at h2
    simp only at i2 i3
    rw [slice_append (m := r1.start) (by omega) (by omega), i2]
    unfold BytesReader.read_len_varint
    refine ReadsAs.bind (reads_isVarint32 i1) ?_ (q := fun len bs => read_len T (p bs) len.toNat)
    have hl := slice_length (s := r1.start) hle
    have hlen : (BitVec.ofNat 32 (varintVal g)).toNat = (slice b r1.start r'.start).length := by
      rw [hl]; omega
    rw [hlen]
    exact readsAs_len (hp.chunk b r1.start r'.start a r2 hR (by omega) hle j3)

/-- A body that takes the bytes up to the limit and inspects them. -/
theorem ChunkEntry.getSelf (o : Bytes → Out α) :
    ChunkEntry T (fun b => do let x ← getSelf b; SM.lift (o x)) where
  toGoodEntry := Good.entry (Good.bind Good.getSelf (fun x => Good.lift (o x)))
  chunk := by
    intro b s f a r' _ hsf hf h pre suf hl
    obtain ⟨x, r1, h1, h2⟩ := SM.bind_ok_inv h
    simp only [BytesReader.getSelf, SM.bind_run, SM.get_run, SM.okOr_run] at h1
    have hg : getRange b s f = some (slice b s f) := by
      unfold getRange; rw [if_pos ⟨hsf, hf⟩]; rfl
    rw [hg] at h1
    simp only [Prod.mk.injEq, Out.ok.injEq] at h1
    obtain ⟨rfl, rfl⟩ := h1
    simp only [SM.lift_run, Prod.mk.injEq] at h2
    refine ⟨pre.length, ?_⟩
    rw [SM.bind_ok (getSelf_reads _ pre suf), SM.lift_run, h2.1]

theorem ChunkEntry.map {p : Bytes → RM α} (hp : ChunkEntry T p) (f : α → β) :
    ChunkEntry T (fun bs => do let a ← p bs; Pure.pure (f a)) where
  toGoodEntry := GoodEntry.map hp.toGoodEntry f
  chunk := by
    intro b s e c r' hR hsf hf h pre suf hl
    obtain ⟨a, r1, h1, h2⟩ := SM.bind_ok_inv h
    simp only [SM.pure_run, Prod.mk.injEq, Out.ok.injEq] at h2
    obtain ⟨rfl, rfl⟩ := h2
    obtain ⟨s', hs⟩ := hp.chunk b s e a r1 hR hsf hf h1 pre suf hl
    exact ⟨s', by rw [SM.bind_ok hs, SM.pure_run]⟩

theorem whileNotEof_end {A : Type} {step : A → RM A} {fuel : Nat} {acc a : A} {r r' : BytesReader}
    (h : whileNotEof step fuel acc r = (.ok a, r')) : r'.start = r'.fin := by
  induction fuel generalizing acc r with
  | zero => simp [BytesReader.whileNotEof, SM.lift_run] at h
  | succ n ih =>
    simp only [BytesReader.whileNotEof, SM.bind_run, SM.get_run] at h
    by_cases he : r.is_eof = true
    · rw [if_pos he] at h
      simp only [SM.pure_run, Prod.mk.injEq] at h
      rw [← h.2]
      simpa [BytesReader.is_eof] using he
    · rw [if_neg he] at h
      obtain ⟨acc', r1, h1, h2⟩ := SM.bind_ok_inv h
      exact ih h2

/-- A loop over pieces. -/
theorem chunk_loop {A : Type} {step : Bytes → A → RM A} (hs : ∀ a, Chunk T (fun b => step b a))
    {fuel : Nat} {acc a : A} {b : Bytes} {s f : Nat} {r' : BytesReader} (hR : Roomy T b)
    (hr : InRange b ⟨s, f⟩) (hf : f ≤ b.length) (h : whileNotEof (step b) fuel acc ⟨s, f⟩ = (.ok a, r')) :
    s ≤ f ∧ r' = ⟨f, f⟩ ∧ ReadsAll T (fun b => whileNotEof (step b) fuel acc) (slice b s f) a := by
  induction fuel generalizing acc s with
  | zero => simp [BytesReader.whileNotEof, SM.lift_run] at h
  | succ n ih =>
    simp only [BytesReader.whileNotEof, SM.bind_run, SM.get_run] at h
    by_cases he : is_eof ⟨s, f⟩ = true
    · rw [if_pos he] at h
      simp only [SM.pure_run, Prod.mk.injEq, Out.ok.injEq] at h
      obtain ⟨rfl, rfl⟩ := h
      have he : s = f := by simpa [BytesReader.is_eof] using he
      subst he
      refine ⟨Nat.le_refl _, rfl, ?_⟩
      rw [slice_self]
      intro pre suf hl
      simp [whileNotEof, SM.bind_run, SM.get_run, is_eof, SM.pure_run]
    · rw [if_neg he] at h
      obtain ⟨acc', r1, h1, h2⟩ := SM.bind_ok_inv h
      have hne : s ≠ f := by simpa [BytesReader.is_eof] using he
      obtain ⟨g1, g2, g3⟩ := (hs acc).orderly b ⟨s, f⟩ hR hr _ _ h1
      have g3 := g3 ⟨_, rfl⟩
      obtain ⟨s1, f1⟩ := r1
      simp only at g1 g3
      subst g3
      obtain ⟨k1, k2, k3⟩ := ih g2 h2
      refine ⟨by omega, k2, ?_⟩
      have c := (hs acc).chunk b s f1 acc' ⟨s1, f1⟩ hR hr h1 (by simp only; omega)
      simp only at c
      intro pre suf hl
      have hlen := slice_length (s := s) hf
      have hlen1 := slice_length (b := b) (s := s) (e := s1) (by omega)
      have hlen2 := slice_length (s := s1) hf
      have happ := slice_append (b := b) g1 k1
      rw [happ] at hl ⊢
      have c1 := c pre (slice b s1 f1 ++ suf) (pre.length + (slice b s s1 ++ slice b s1 f1).length)
        (by simpa using hl) (by simp)
      have c2 := k3 (pre ++ slice b s s1) suf (by simpa [Nat.add_assoc] using hl)
      simp only [List.append_assoc, List.length_append] at c1 c2 ⊢
      have hneof : is_eof ⟨pre.length, pre.length + ((slice b s s1).length + (slice b s1 f1).length)⟩ = false := by
          simp only [is_eof, beq_eq_false_iff_ne]; omega
      simp only [whileNotEof, SM.bind_run, SM.get_run, hneof, Bool.false_eq_true, if_false, c1]
      simp only [Nat.add_assoc] at c2 ⊢
      exact c2

theorem ChunkEntry.loop {A : Type} {step : Bytes → A → RM A} (hs : ∀ a, Chunk T (fun b => step b a))
    (fuel : Nat) (acc : A) : ChunkEntry T (fun b => whileNotEof (step b) fuel acc) where
  toGoodEntry := Good.entry (Good.whileNotEof (fun a => (hs a).toGood) fuel acc)
  chunk := by
    intro b s f a r' hR hsf hf h pre suf hl
    have h3 := (chunk_loop hs hR ⟨by simp only; omega, by simp only; omega⟩ hf h).2.2
    exact ⟨_, h3 pre suf hl⟩

theorem Chunk.skip (hT : T.overflowChecks = true) (n : Nat) :
    Chunk T (fun _ => BytesReader.skip T n) where
  toGood := Good.skip hT n
  chunk := by
    intro b s f a r' hR hr h hle
    by_cases hsf : s ≤ f
    · obtain ⟨h1, rfl⟩ := skip_inv (T := T) (n := n) (r := ⟨s, f⟩) (r' := r') hsf
        (by unfold InRange Roomy at *; simp only at *; omega) h
      have hl := slice_length (s := s) hle
      refine skip_reads n _ ?_
      simp only at hl ⊢
      omega
    · exfalso
      have : T.usizeSub f s = .panic := by
        unfold Target.usizeSub; rw [if_neg hsf, if_pos hT]
      simp only [BytesReader.skip, SM.bind_run, SM.get_run, SM.lift_run, this] at h
      simp at h

theorem Chunk.read_unknown (hT : T.overflowChecks = true) (tag : BitVec 32) :
    Chunk T (fun bs => BytesReader.read_unknown T bs tag) := by
  unfold BytesReader.read_unknown
  refine Chunk.ite (Chunk.bind Chunk.read_varint64 (fun _ => Chunk.pure ())) ?_
  refine Chunk.ite (Chunk.skip hT 8) ?_
  refine Chunk.ite (Chunk.skip hT 4) ?_
  refine Chunk.ite (Chunk.bind Chunk.read_varint64 (fun v => Chunk.ite (Chunk.skip hT _) (Chunk.throw _))) ?_
  exact Chunk.ite (Chunk.throw _) (Chunk.throw _)

/-- `read_packed_fixed` of any length prefix and body; what does not make a whole element is
dropped. -/
theorem reads_packed_fixed_raw (M : MemTy α) (hz : M.size ≠ 0) {g body : Bytes} (hg : IsVarint g)
    (hlen : varintVal g % 2 ^ 32 = body.length) :
    ReadsAs T (BytesReader.read_packed_fixed T M) (g ++ body)
      (.borrowed (body.take (body.length / M.size * M.size))) := by
  intro pre suf fin hlt hfin
  simp only [List.length_append] at hlt hfin
  have h1 := reads_isVarint32 (T := T) hg pre (body ++ suf) fin
    (by simp only [List.length_append]; omega) (by omega)
  have hn : (BitVec.ofNat 32 (varintVal g)).toNat = body.length := by
    rw [BitVec.toNat_ofNat, hlen]
  have hq : body.length / M.size * M.size ≤ body.length := Nat.div_mul_le_self _ _
  simp only [List.append_assoc, List.length_append] at h1 ⊢
  simp only [BytesReader.read_packed_fixed, SM.bind_run, h1, BytesReader.len, SM.get_run, SM.lift_run]
  rw [usizeSub_ok (by omega)]
  simp only [SM.ite_run]
  rw [hn, if_neg (by omega), if_neg hz]
  simp only [SM.bind_run, SM.get_run, SM.lift_run]
  rw [usizeAdd_ok (by omega), usizeAdd_ok (by omega)]
  have hr : getRange (pre ++ (g ++ (body ++ suf))) (pre.length + g.length)
      (pre.length + g.length + body.length / M.size * M.size)
      = some (body.take (body.length / M.size * M.size)) := by
    unfold getRange
    rw [if_pos (by simp only [List.length_append]; omega), ← List.append_assoc, ← List.length_append,
      List.drop_left, Nat.add_sub_cancel_left, List.take_append_of_le_length hq]
  simp only
  rw [hr]
  simp only [SM.pure_run, SM.set_run, Nat.add_assoc]

theorem Chunk.read_packed_fixed (hT : T.overflowChecks = true) (M : MemTy α) :
    Chunk T (BytesReader.read_packed_fixed T M) where
  toGood := Good.read_packed_fixed hT M
  chunk := by
    intro b s f a r' hR hr h hle
    obtain ⟨len, r1, rem, stop, x, h1, h2, h3, h4, h5, h6, rfl, h7, h8⟩ := read_packed_fixed_inv h
    obtain ⟨g, i1, i2, i3, i4, rfl⟩ := read_varint32_inv h1
    have hin := read_varint32_in h1
    have hv := (BitVec.ofNat 32 (varintVal g)).isLt
    have hR' := hR
    unfold Roomy at hR'
    generalize hL : (BitVec.ofNat 32 (varintVal g)).toNat = L at *
    have hq : L / M.size * M.size ≤ L := Nat.div_mul_le_self _ _
    rw [usizeAdd_ok (by omega), Out.ok.injEq] at h5 h7
    subst h5
    simp only at i2 i3
    rw [slice_append (m := r1.start) (by omega) (by omega), i2]
    have hl := slice_length (s := r1.start) hle
    have hbl : (slice b r1.start r'.start).length = L := by omega
    have hx : x = (slice b r1.start r'.start).take (L / M.size * M.size) := by
      unfold getRange at h6
      split at h6
      · simp only [Option.some.injEq] at h6
        rw [← h6, slice, ← h7, Nat.add_sub_cancel_left, Nat.add_sub_cancel_left, List.take_take,
          Nat.min_eq_left hq]
      · cases h6
    rw [hx]
    have := reads_packed_fixed_raw (T := T) M h4 i1 (body := slice b r1.start r'.start)
      (by rw [hbl, ← hL, BitVec.toNat_ofNat])
    rw [hbl] at this
    exact this

end
end QP

namespace QP.Gen
open QP.Pbrs Spec BytesReader

section
variable {C : Ctx} {rd : MessageIndex → Bytes → RM RVal}

theorem chunk_bytes {T : Target} : Chunk T (read_bytes T) := by
  have h : ∀ b, (do let x ← getSelf b; SM.lift (.ok x)) = getSelf b := by
    intro b; funext r
    simp only [SM.bind_run, SM.lift_run]
    rcases getSelf b r with ⟨o, s⟩
    cases o <;> rfl
  have h2 := Chunk.read_len_varint (T := T) (ChunkEntry.getSelf (fun x => Out.ok x))
  simp only [h] at h2
  exact h2

theorem chunk_string {T : Target} : Chunk T (read_string T) := by
  have h : ∀ b, (do
      let x ← getSelf b
      if utf8Ok x then (pure x : RM Bytes) else SM.throw .Utf8)
      = (do let x ← getSelf b; SM.lift (if utf8Ok x then .ok x else .err .Utf8)) := by
    intro b; funext r
    simp only [SM.bind_run, SM.lift_run]
    rcases getSelf b r with ⟨o, s⟩
    cases o <;> simp only <;> split <;> rfl
  unfold read_string
  simp only [h]
  exact Chunk.read_len_varint (ChunkEntry.getSelf _)

theorem chunk_readTyp (hrd : ∀ m, ChunkEntry C.T (rd m))(t : FieldType) :
    Chunk C.T (readTyp C rd t) := by
  have hm : ∀ {α : Type} {p : Bytes → RM α} (f : α → RVal), Chunk C.T p →
      Chunk C.T (fun b => do let x ← p b; pure (f x)) := fun f hp => Chunk.map hp f
  have v32 := Chunk.read_varint32 (T := C.T)
  have v64 := Chunk.read_varint64 (T := C.T)
  have f32 := Chunk.read_fixed (T := C.T) (len := 4) (by omega) leRead32
  have f64 := Chunk.read_fixed (T := C.T) (len := 8) (by omega) leRead64
  cases t
  case int32 => exact hm RVal.w32 v32
  case int64 => exact hm RVal.w64 v64
  case uint32 => exact hm RVal.w32 v32
  case uint64 => exact hm RVal.w64 v64
  case sint32 => exact hm RVal.w32 (Chunk.map v32 _)
  case sint64 => exact hm RVal.w64 (Chunk.map v64 _)
  case bool => exact hm RVal.bool (Chunk.map v32 _)
  case enum e => exact hm RVal.w32 (Chunk.map v32 _)
  case fixed64 => exact hm RVal.w64 f64
  case sfixed64 => exact hm RVal.w64 f64
  case double => exact hm RVal.w64 f64
  case fixed32 => exact hm RVal.w32 f32
  case sfixed32 => exact hm RVal.w32 f32
  case float => exact hm RVal.w32 f32
  case stringCow => exact hm RVal.bytes chunk_string
  case string_ => exact hm RVal.bytes chunk_string
  case bytesCow => exact hm RVal.bytes chunk_bytes
  case bytes_ => exact hm RVal.bytes chunk_bytes
  case message m => exact Chunk.read_len_varint (hrd m)
  case messageOrEnum => exact Chunk.lift _
  case map => exact Chunk.lift _

theorem chunk_armRead (hT : C.T.overflowChecks = true) (hrd : ∀ m, ChunkEntry C.T (rd m)) (fuel : Nat) (a : Arm) :
    Chunk C.T (armRead C rd fuel a) := by
  have hr := chunk_readTyp (C := C) hrd
  unfold armRead
  refine Chunk.ite (hr _) ?_
  cases a.field.frequency.generated
  · exact hr _
  · refine Chunk.ite (Chunk.ite (Chunk.ite ?_ ?_) ?_) (hr _)
    · exact Chunk.map (Chunk.read_packed_fixed hT _) _
    · exact Chunk.map (Chunk.read_packed_fixed hT _) _
    · exact Chunk.map (Chunk.read_len_varint (ChunkEntry.map (ChunkEntry.loop
        (step := fun b acc => (do let m ← readTyp C rd a.field.typ b; pure (m :: acc)))
        (fun acc => Chunk.map (hr _) (fun m => m :: acc)) fuel []) (fun v => v.reverse))) _
  · cases a.field.typ
    case map k v =>
      refine Chunk.map (Chunk.read_len_varint (ChunkEntry.loop
        (step := fun b (kv : RVal × RVal) => (do
          let t ← read_u8 b
          let n := t >>> 3
          if n = 1#8 then do
            let k ← readTyp C rd k b
            pure (k, kv.2)
          else if n = 2#8 then do
            let v ← readTyp C rd v b
            pure (kv.1, v)
          else SM.throw (.Map n))) (fun kv => ?_) fuel _)) _
      exact Chunk.bind Chunk.read_u8 (fun t => Chunk.ite (Chunk.map (hr k) _)
        (Chunk.ite (Chunk.map (hr v) _) (Chunk.throw _)))
    all_goals exact Chunk.lift _

theorem chunk_msgStep (hT : C.T.overflowChecks = true) (hrd : ∀ m, ChunkEntry C.T (rd m)) (fuel : Nat)
    (as : List Arm) (slots : List RVal) :
    Chunk C.T (fun b => msgStep C rd fuel as b slots) := by
  unfold msgStep
  refine Chunk.bind Chunk.read_varint32 (fun t => ?_)
  cases as.find? (fun a => a.field.tag == t) with
  | none => exact Chunk.bind (Chunk.read_unknown hT t) (fun _ => Chunk.pure _)
  | some a => exact Chunk.bind (chunk_armRead hT hrd fuel a) (fun _ => Chunk.pure _)

end

/-- With overflow checks, a generated decoder run on any slice is determined by that slice. -/
theorem chunkEntry_fromReader {C : Ctx} (hT : C.T.overflowChecks = true) (n : Nat) (idx : MessageIndex) :
    ChunkEntry C.T (fromReader C n idx) := by
  induction n generalizing idx with
  | zero =>
    refine { toGoodEntry := goodEntry_fromReader hT 0 idx, chunk := ?_ }
    intro b s f a r' _ _ _ h
    simp [fromReader, SM.lift_run] at h
  | succ n ih =>
    cases h : C.D.getMessage idx with
    | none =>
      refine { toGoodEntry := goodEntry_fromReader hT _ idx, chunk := ?_ }
      rw [fromReader_none n h]
      intro b s f a r' _ _ _ h
      simp [SM.lift_run] at h
    | some m =>
      cases hu : m.isUnit
      · rw [fromReader_msg n h hu]
        exact ChunkEntry.map (ChunkEntry.loop
          (step := fun b => msgStep C (fromReader C n) (n + 1) (arms C.cfg m) b)
          (fun s => chunk_msgStep hT ih (n + 1) _ s) (n + 1) _) _
      · refine { toGoodEntry := goodEntry_fromReader hT _ idx, chunk := ?_ }
        rw [fromReader_unit n h hu]
        intro b s f a r' _ _ _ h pre suf hl
        simp only [read_to_end, SM.bind_run, SM.get_run, SM.set_run, SM.pure_run, Prod.mk.injEq,
          Out.ok.injEq] at h ⊢
        exact ⟨_, h.1, rfl⟩

end QP.Gen
