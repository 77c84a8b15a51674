import Verif.Proofs.Chunk
import Verif.Spec.Decode
/-! Generated decoders and the declarative decoder agree. -/

set_option linter.unusedVariables false

namespace QP
open Spec BytesReader

section
variable {T : Target} {α β : Type}

/-- Whatever a successful read consumed, `D` relates it to the result. -/
structure Dec (T : Target) {α : Type} (p : Bytes → RM α) (D : Bytes → α → Prop) : Prop extends Good T p where
  sound : ∀ b s f a r', Roomy T b → InRange b ⟨s, f⟩ → p b ⟨s, f⟩ = (.ok a, r') →
    r'.start ≤ b.length → D (slice b s r'.start) a

/-- The same for a decoder that runs up to the limit. -/
structure DecEntry (T : Target) {α : Type} (p : Bytes → RM α) (D : Bytes → α → Prop) : Prop
    extends GoodEntry T p where
  sound : ∀ b s f a r', Roomy T b → s ≤ f → f ≤ b.length → p b ⟨s, f⟩ = (.ok a, r') → D (slice b s f) a

theorem Dec.imp {p : Bytes → RM α} {D E : Bytes → α → Prop} (h : Dec T p D) (hi : ∀ x a, D x a → E x a) :
    Dec T p E where
  toGood := h.toGood
  sound := fun b s f a r' h1 h2 h3 h4 => hi _ _ (h.sound b s f a r' h1 h2 h3 h4)

theorem DecEntry.imp {p : Bytes → RM α} {D E : Bytes → α → Prop} (h : DecEntry T p D)
    (hi : ∀ x a, D x a → E x a) : DecEntry T p E where
  toGoodEntry := h.toGoodEntry
  sound := fun b s f a r' h1 h2 h3 h4 => hi _ _ (h.sound b s f a r' h1 h2 h3 h4)

theorem Dec.lift {o : Out α} {D : Bytes → α → Prop} (h : ∀ a, o = .ok a → D [] a) :
    Dec T (fun _ => (SM.lift o : RM α)) D where
  toGood := Good.lift o
  sound := by
    intro b s f a r' _ _ hr _
    simp only [SM.lift_run, Prod.mk.injEq] at hr
    obtain ⟨h1, rfl⟩ := hr
    rw [slice_self]; exact h a h1

theorem Dec.bind {p : Bytes → RM α} {q : α → Bytes → RM β} {D : Bytes → α → Prop} {E : α → Bytes → β → Prop}
    (hp : Dec T p D) (hq : ∀ a, Dec T (q a) (E a)) :
    Dec T (fun bs => do let a ← p bs; q a bs) (fun x c => ∃ y z a, x = y ++ z ∧ D y a ∧ E a z c) where
  toGood := Good.bind hp.toGood (fun a => (hq a).toGood)
  sound := by
    intro b s f c r' hR hr h hle
    obtain ⟨a, r1, h1, h2⟩ := SM.bind_ok_inv h
    obtain ⟨g1, g2, g3⟩ := hp.orderly b ⟨s, f⟩ hR hr _ _ h1
    obtain ⟨k1, k2, k3⟩ := (hq a).orderly b r1 hR g2 _ _ h2
    exact ⟨_, _, a, slice_append (m := r1.start) g1 k1, hp.sound b s f a r1 hR hr h1 (by omega),
      (hq a).sound b r1.start r1.fin c r' hR g2 h2 hle⟩

theorem Dec.map {p : Bytes → RM α} {D : Bytes → α → Prop} (hp : Dec T p D) (f : α → β) :
    Dec T (fun bs => do let a ← p bs; Pure.pure (f a)) (fun x c => ∃ a, D x a ∧ c = f a) := by
  refine Dec.imp (Dec.bind hp (q := fun a _ => Pure.pure (f a)) (E := fun a z c => z = [] ∧ c = f a)
    (fun a => Dec.lift (o := .ok (f a)) (fun c h => ⟨rfl, by cases h; rfl⟩))) ?_
  rintro x c ⟨y, z, a, rfl, h1, rfl, rfl⟩
  exact ⟨a, by simpa using h1, rfl⟩

theorem Dec.ite {c : Prop} [Decidable c] {p q : Bytes → RM α} {D E : Bytes → α → Prop} (hp : c → Dec T p D)
    (hq : ¬ c → Dec T q E) :
    Dec T (fun bs => if c then p bs else q bs) (fun x a => if c then D x a else E x a) := by
  by_cases h : c
  · simp only [if_pos h]; exact hp h
  · simp only [if_neg h]; exact hq h

theorem Dec.read_u8 : Dec T read_u8 (fun x a => x = [a]) where
  toGood := Good.read_u8
  sound := by
    intro b s f a r' _ _ h _
    rcases hd : b.drop s with _ | ⟨x, l⟩
    · rw [read_u8_nil (r := ⟨s, f⟩) hd] at h; simp at h
    · rw [read_u8_cons (r := ⟨s, f⟩) hd] at h
      simp only [Prod.mk.injEq, Out.ok.injEq] at h
      obtain ⟨rfl, rfl⟩ := h
      unfold slice; rw [hd, Nat.add_sub_cancel_left]; simp

theorem Dec.read_varint32 :
    Dec T read_varint32 (fun x a => IsVarint x ∧ a = BitVec.ofNat 32 (varintVal x)) where
  toGood := Good.read_varint32
  sound := by
    intro b s f a r' _ _ h _
    obtain ⟨g, h1, h2, _, _, rfl⟩ := read_varint32_inv h
    simp only at h2
    rw [h2]; exact ⟨h1, rfl⟩

theorem Dec.read_varint64 :
    Dec T read_varint64 (fun x a => IsVarint x ∧ a = BitVec.ofNat 64 (varintVal x)) where
  toGood := Good.read_varint64
  sound := by
    intro b s f a r' _ _ h _
    obtain ⟨g, h1, h2, _, _, rfl⟩ := read_varint64_inv h
    simp only at h2
    rw [h2]; exact ⟨h1, rfl⟩

theorem Dec.read_fixed {len : Nat} (hlen : len ≤ 2 ^ 32) (f : Bytes → α) :
    Dec T (fun bs => BytesReader.read_fixed T bs len f) (fun x a => x.length = len ∧ a = f x) where
  toGood := Good.read_fixed hlen f
  sound := by
    intro b s fi a r' hR hr h _
    unfold InRange Roomy at *
    simp only at hr
    simp only [BytesReader.read_fixed, SM.bind_run, SM.get_run, SM.lift_run,
      usizeAdd_ok (T := T) (a := s) (b := len) (by omega), SM.okOr_run] at h
    cases hg : getRange b s (s + len) with
    | none => rw [hg] at h; simp at h
    | some c =>
      rw [hg] at h
      simp only [SM.set_run, SM.pure_run, Prod.mk.injEq, Out.ok.injEq] at h
      obtain ⟨rfl, rfl⟩ := h
      unfold getRange at hg
      split at hg
      · rename_i hin
        simp only [Option.some.injEq] at hg
        have hs : slice b s (s + len) = c := hg
        rw [hs]
        exact ⟨by rw [← hs, slice_length hin.2]; omega, rfl⟩
      · cases hg

theorem Dec.read_len_varint {p : Bytes → RM α} {D : Bytes → α → Prop} (hp : DecEntry T p D) :
    Dec T (fun bs => BytesReader.read_len_varint T bs (p bs)) (fun x a => ∃ body, Gen.Delimited x body ∧ D body a) where
  toGood := Good.read_len_varint hp.toGoodEntry
  sound := by
    intro b s f a r' hR hr h hle
    obtain ⟨v, r1, h1, h2⟩ := SM.bind_ok_inv h
    obtain ⟨g, i1, i2, i3, i4, rfl⟩ := read_varint32_inv h1
    have hin := read_varint32_in h1
    have hv := (BitVec.ofNat 32 (varintVal g)).isLt
    have hR' := hR
    unfold Roomy at hR'
    obtain ⟨j1, r2, j3⟩ : r1.start + (BitVec.ofNat 32 (varintVal g)).toNat = r'.start ∧
        ∃ r2, p b ⟨r1.start, r'.start⟩ = (.ok a, r2) := by
      simp only [read_len, SM.bind_run, SM.get_run, SM.lift_run, usizeAdd_ok (T := T) (a := r1.start)
        (b := (BitVec.ofNat 32 (varintVal g)).toNat) (by omega), SM.set_run] at h2
      rcases hpr : p b ⟨r1.start, r1.start + (BitVec.ofNat 32 (varintVal g)).toNat⟩ with ⟨o, r2⟩
      have h3 := (hp.orderly b _ hR (by unfold InRange; simp only; omega) (by simp only; omega) o r2 hpr).2.2
      rw [hpr] at h2
      cases o with
      | ok c =>
        have h3 := h3 ⟨c, rfl⟩
        simp only [SM.pure_run, Prod.mk.injEq, Out.ok.injEq] at h2
        obtain ⟨rfl, rfl⟩ := h2
        simp only at h3 ⊢
        exact ⟨h3.symm, r2, by rw [h3]; exact hpr⟩
      | _ => simp at h2
    simp only at i2 i3
    have hl := slice_length (s := r1.start) hle
    refine ⟨slice b r1.start r'.start, ⟨g, i1, ?_, ?_⟩, hp.sound b r1.start r'.start a r2 hR (by omega) hle j3⟩
    · rw [hl, ← BitVec.toNat_ofNat]; omega
    · rw [slice_append (m := r1.start) (by omega) (by omega), i2]

theorem DecEntry.getSelf (o : Bytes → Out α) :
    DecEntry T (fun b => do let x ← getSelf b; SM.lift (o x)) (fun x a => o x = .ok a) where
  toGoodEntry := Good.entry (Good.bind Good.getSelf (fun x => Good.lift (o x)))
  sound := by
    intro b s f a r' _ hsf hf h
    obtain ⟨x, r1, h1, h2⟩ := SM.bind_ok_inv h
    simp only [BytesReader.getSelf, SM.bind_run, SM.get_run, SM.okOr_run] at h1
    have hg : getRange b s f = some (slice b s f) := by
      unfold getRange; rw [if_pos ⟨hsf, hf⟩]; rfl
    rw [hg] at h1
    simp only [Prod.mk.injEq, Out.ok.injEq] at h1
    obtain ⟨rfl, rfl⟩ := h1
    simp only [SM.lift_run, Prod.mk.injEq] at h2
    exact h2.1

theorem DecEntry.map {p : Bytes → RM α} {D : Bytes → α → Prop} (hp : DecEntry T p D) (f : α → β) :
    DecEntry T (fun bs => do let a ← p bs; Pure.pure (f a)) (fun x c => ∃ a, D x a ∧ c = f a) where
  toGoodEntry := GoodEntry.map hp.toGoodEntry f
  sound := by
    intro b s e c r' hR hsf hf h
    obtain ⟨a, r1, h1, h2⟩ := SM.bind_ok_inv h
    simp only [SM.pure_run, Prod.mk.injEq, Out.ok.injEq] at h2
    obtain ⟨rfl, rfl⟩ := h2
    exact ⟨a, hp.sound b s e a r1 hR hsf hf h1, rfl⟩

/-- A loop reads a sequence of pieces. -/
theorem dec_loop {A U : Type} {R : Bytes → U → Prop} {upd : A → U → A} {step : Bytes → A → RM A}
    (hs : ∀ a, Dec T (fun b => step b a) (fun x a' => ∃ u, R x u ∧ a' = upd a u))
    {fuel : Nat} {acc a : A} {b : Bytes} {s f : Nat} {r' : BytesReader} (hR : Roomy T b)
    (hr : InRange b ⟨s, f⟩) (hf : f ≤ b.length) (h : whileNotEof (step b) fuel acc ⟨s, f⟩ = (.ok a, r')) :
    s ≤ f ∧ ∃ us, Gen.Parses R (slice b s f) us ∧ a = us.foldl upd acc := by
  induction fuel generalizing acc s with
  | zero => simp [BytesReader.whileNotEof, SM.lift_run] at h
  | succ n ih =>
    simp only [BytesReader.whileNotEof, SM.bind_run, SM.get_run] at h
    by_cases he : is_eof ⟨s, f⟩ = true
    · rw [if_pos he] at h
      simp only [SM.pure_run, Prod.mk.injEq, Out.ok.injEq] at h
      obtain ⟨rfl, rfl⟩ := h
      have he : s = f := by simpa [BytesReader.is_eof] using he
      subst he
      exact ⟨Nat.le_refl _, [], by rw [slice_self]; exact .nil, rfl⟩
    · rw [if_neg he] at h
      obtain ⟨acc', r1, h1, h2⟩ := SM.bind_ok_inv h
      obtain ⟨g1, g2, g3⟩ := (hs acc).orderly b ⟨s, f⟩ hR hr _ _ h1
      have g3 := g3 ⟨_, rfl⟩
      obtain ⟨s1, f1⟩ := r1
      simp only at g1 g3
      subst g3
      obtain ⟨k1, us, k2, k3⟩ := ih g2 h2
      obtain ⟨u, hu, rfl⟩ := (hs acc).sound b s f1 acc' ⟨s1, f1⟩ hR hr h1 (by simp only; omega)
      refine ⟨by omega, u :: us, ?_, k3⟩
      rw [slice_append (b := b) g1 k1]
      exact .cons hu k2

theorem DecEntry.loop {A U : Type} {R : Bytes → U → Prop} {upd : A → U → A} {step : Bytes → A → RM A}
    (hs : ∀ a, Dec T (fun b => step b a) (fun x a' => ∃ u, R x u ∧ a' = upd a u)) (fuel : Nat) (acc : A) :
    DecEntry T (fun b => whileNotEof (step b) fuel acc)
      (fun x a => ∃ us, Gen.Parses R x us ∧ a = us.foldl upd acc) where
  toGoodEntry := Good.entry (Good.whileNotEof (fun a => (hs a).toGood) fuel acc)
  sound := by
    intro b s f a r' hR hsf hf h
    exact (dec_loop hs hR ⟨by simp only; omega, by simp only; omega⟩ hf h).2

theorem Dec.skip (hT : T.overflowChecks = true) (n : Nat) :
    Dec T (fun _ => BytesReader.skip T n) (fun x _ => x.length = n) where
  toGood := Good.skip hT n
  sound := by
    intro b s f a r' hR hr h hle
    by_cases hsf : s ≤ f
    · obtain ⟨h1, rfl⟩ := skip_inv (T := T) (n := n) (r := ⟨s, f⟩) (r' := r') hsf
        (by unfold InRange Roomy at *; simp only at *; omega) h
      have hl := slice_length (s := s) hle
      simp only at hl ⊢
      omega
    · exfalso
      have : T.usizeSub f s = .panic := by
        unfold Target.usizeSub; rw [if_neg hsf, if_pos hT]
      simp only [BytesReader.skip, SM.bind_run, SM.get_run, SM.lift_run, this] at h
      simp at h

theorem Dec.read_unknown (hT : T.overflowChecks = true) (tag : BitVec 32) :
    Dec T (fun bs => BytesReader.read_unknown T bs tag) (fun x _ => Payload (tag.toNat % 8) x) := by
  unfold BytesReader.read_unknown
  have hw : ∀ k, k < 8 → (tag &&& 0x7#32).setWidth 8 = BitVec.ofNat 8 k → tag.toNat % 8 = k :=
    fun k hk => (wireType_is hk).mp
  have thr : ∀ {E : Bytes → Unit → Prop} (e : Error), Dec T (fun _ => (SM.throw e : RM Unit)) E :=
    fun e => Dec.lift (o := .err e) (fun a h => by cases h)
  refine Dec.imp (D := fun x a => _) (Dec.ite
    (fun _ => Dec.map (f := fun _ => ()) Dec.read_varint64)
    (fun _ => Dec.ite (fun _ => Dec.skip hT 8)
    (fun _ => Dec.ite (fun _ => Dec.skip hT 4)
    (fun _ => Dec.ite (fun _ => Dec.bind (E := fun v z _ => z.length = v.toNat) Dec.read_varint64
      (fun v => Dec.imp (Dec.ite (fun _ => Dec.skip hT v.toNat) (fun _ => thr (E := fun _ _ => False) _)) ?_))
    (fun _ => Dec.imp (Dec.ite (fun _ => thr (E := fun _ _ => False) _) (fun _ => thr (E := fun _ _ => False) _))
      (E := fun _ _ => False) ?_))))) ?_
  · intro x a h
    by_cases hc : v.toNat < 2 ^ T.usizeBits
    · rwa [if_pos hc] at h
    · rw [if_neg hc] at h; exact h.elim
  · intro x a h
    split at h <;> exact h
  · intro x a h
    simp only at h
    by_cases h0 : (tag &&& 0x7#32).setWidth 8 = 0#8
    · rw [if_pos h0] at h
      obtain ⟨_, ⟨h1, _⟩, _⟩ := h
      rw [hw 0 (by omega) h0]; exact .varint h1
    rw [if_neg h0] at h
    by_cases h1 : (tag &&& 0x7#32).setWidth 8 = 1#8
    · rw [if_pos h1] at h
      rw [hw 1 (by omega) h1]; exact .fixed64 h
    rw [if_neg h1] at h
    by_cases h5 : (tag &&& 0x7#32).setWidth 8 = 5#8
    · rw [if_pos h5] at h
      rw [hw 5 (by omega) h5]; exact .fixed32 h
    rw [if_neg h5] at h
    by_cases h2 : (tag &&& 0x7#32).setWidth 8 = 2#8
    · rw [if_pos h2] at h
      obtain ⟨y, z, v, rfl, ⟨hv1, rfl⟩, hz⟩ := h
      rw [hw 2 (by omega) h2]
      exact .delimited hv1 (by rw [hz, BitVec.toNat_ofNat])
    rw [if_neg h2] at h
    exact h.elim

theorem Dec.read_packed_fixed (hT : T.overflowChecks = true) (M : MemTy α) :
    Dec T (BytesReader.read_packed_fixed T M) (fun x a => ∃ body, Gen.Delimited x body ∧
      a = .borrowed (body.take (body.length / M.size * M.size))) where
  toGood := Good.read_packed_fixed hT M
  sound := by
    intro b s f a r' hR hr h hle
    obtain ⟨len, r1, rem, stop, x, h1, h2, h3, h4, h5, h6, rfl, h7, h8⟩ := read_packed_fixed_inv h
    obtain ⟨g, i1, i2, i3, i4, rfl⟩ := read_varint32_inv h1
    have hin := read_varint32_in h1
    have hv := (BitVec.ofNat 32 (varintVal g)).isLt
    have hR' := hR
    unfold Roomy at hR'
    generalize hL : (BitVec.ofNat 32 (varintVal g)).toNat = L at *
    have hq : L / M.size * M.size ≤ L := Nat.div_mul_le_self _ _
    rw [usizeAdd_ok (by omega), Out.ok.injEq] at h5 h7
    subst h5
    simp only at i2 i3
    have hl := slice_length (s := r1.start) hle
    have hbl : (slice b r1.start r'.start).length = L := by omega
    refine ⟨slice b r1.start r'.start, ⟨g, i1, by rw [hbl, ← hL, BitVec.toNat_ofNat], ?_⟩, ?_⟩
    · rw [slice_append (m := r1.start) (by omega) (by omega), i2]
    · congr 1
      rw [hbl]
      unfold getRange at h6
      split at h6
      · simp only [Option.some.injEq] at h6
        rw [← h6, slice, ← h7, Nat.add_sub_cancel_left, Nat.add_sub_cancel_left, List.take_take,
          Nat.min_eq_left hq]
      · cases h6

end
end QP

namespace QP.Gen
open QP.Pbrs Spec BytesReader

theorem Parses.list {U : Type} {R : Bytes → U → Prop} {b : Bytes} {us : List U} (h : Parses R b us) :
    ∃ l : List (Bytes × U), b = l.flatMap (·.1) ∧ us = l.map (·.2) ∧ ∀ x ∈ l, R x.1 x.2 := by
  induction h with
  | nil => exact ⟨[], rfl, rfl, by simp⟩
  | @cons p q u us h1 h2 ih =>
    obtain ⟨l, rfl, rfl, h3⟩ := ih
    refine ⟨(p, u) :: l, rfl, rfl, ?_⟩
    intro x hx
    rcases List.mem_cons.mp hx with rfl | hx
    · exact h1
    · exact h3 x hx

theorem Parses.of_list {U : Type} {R : Bytes → U → Prop} {l : List (Bytes × U)} (h : ∀ x ∈ l, R x.1 x.2) :
    Parses R (l.flatMap (·.1)) (l.map (·.2)) := by
  induction l with
  | nil => exact .nil
  | cons x l ih => exact .cons (h x (by simp)) (ih (fun y hy => h y (by simp [hy])))

theorem Parses.append {U : Type} {R : Bytes → U → Prop} {b c : Bytes} {us vs : List U} (h : Parses R b us)
    (h' : Parses R c vs) : Parses R (b ++ c) (us ++ vs) := by
  induction h with
  | nil => exact h'
  | cons h1 h2 ih => rw [List.append_assoc]; exact .cons h1 ih

theorem Parses.imp {U : Type} {R S : Bytes → U → Prop} {b : Bytes} {us : List U} (h : Parses R b us)
    (hi : ∀ p u, p.length ≤ b.length → R p u → S p u) : Parses S b us := by
  induction h with
  | nil => exact .nil
  | cons h1 h2 ih =>
    exact .cons (hi _ _ (by simp) h1) (ih (fun p u hl => hi p u (by simp; omega)))

theorem IsVarint.ne_nil {g : Bytes} (h : IsVarint g) : g ≠ [] := by
  obtain ⟨c, b, rfl, _⟩ := h; simp

theorem Delimited.length {p body : Bytes} (h : Delimited p body) : body.length < p.length := by
  obtain ⟨g, hg, _, rfl⟩ := h
  have := List.length_pos_iff.mpr (IsVarint.ne_nil hg)
  simp; omega

theorem zigzag_unzigzag32 (n : BitVec 32) : zigzag ((n >>> 1) ^^^ (-(n &&& 1#32))).toInt = n.toNat := by
  have hlt := n.isLt
  rw [unzigzag 32 _ (by omega), zigzag, BitVec.toInt_eq_toNat_cond]
  by_cases h : n.toNat % 2 = 0
  · rw [if_pos h, BitVec.toNat_ushiftRight, Nat.shiftRight_eq_div_pow, if_pos (by omega), if_pos (by omega)]
    omega
  · rw [if_neg h, BitVec.toNat_not, BitVec.toNat_ushiftRight, Nat.shiftRight_eq_div_pow, if_neg (by omega),
      if_neg (by omega)]
    omega

theorem zigzag_unzigzag64 (n : BitVec 64) : zigzag ((n >>> 1) ^^^ (-(n &&& 1#64))).toInt = n.toNat := by
  have hlt := n.isLt
  rw [unzigzag 64 _ (by omega), zigzag, BitVec.toInt_eq_toNat_cond]
  by_cases h : n.toNat % 2 = 0
  · rw [if_pos h, BitVec.toNat_ushiftRight, Nat.shiftRight_eq_div_pow, if_pos (by omega), if_pos (by omega)]
    omega
  · rw [if_neg h, BitVec.toNat_not, BitVec.toNat_ushiftRight, Nat.shiftRight_eq_div_pow, if_neg (by omega),
      if_neg (by omega)]
    omega

theorem zigzag_inj {a b : Int} (h : zigzag a = zigzag b) : a = b := by
  unfold zigzag at h
  split at h <;> split at h <;> omega

theorem bne_zero32 (n : BitVec 32) : (n != 0#32) = decide (n.toNat ≠ 0) := by
  by_cases h : n = 0#32
  · subst h; rfl
  · have : n.toNat ≠ 0 := fun h' => h (BitVec.eq_of_toNat_eq h')
    simp [bne, h, this]

/-! ## Soundness -/

section
variable {C : Ctx} {rd : MessageIndex → Bytes → RM RVal} {sub : MessageIndex → Bytes → RVal → Prop}

theorem dec_bytes {T : Target} : Dec T (read_bytes T) (fun x a => ∃ body, Delimited x body ∧ a = body) := by
  have h : ∀ b, (do let x ← getSelf b; SM.lift (.ok x)) = getSelf b := by
    intro b; funext r
    simp only [SM.bind_run, SM.lift_run]
    rcases getSelf b r with ⟨o, s⟩
    cases o <;> rfl
  have h2 := Dec.read_len_varint (T := T) (DecEntry.getSelf (fun x => Out.ok x))
  simp only [h] at h2
  exact h2.imp (by rintro x a ⟨body, h1, h2⟩; exact ⟨body, h1, by cases h2; rfl⟩)

theorem dec_string {T : Target} :
    Dec T (read_string T) (fun x a => ∃ body, Delimited x body ∧ ValidUtf8 body ∧ a = body) := by
  have h : ∀ b, (do
      let x ← getSelf b
      if utf8Ok x then (pure x : RM Bytes) else SM.throw .Utf8)
      = (do let x ← getSelf b; SM.lift (if utf8Ok x then .ok x else .err .Utf8)) := by
    intro b; funext r
    simp only [SM.bind_run, SM.lift_run]
    rcases getSelf b r with ⟨o, s⟩
    cases o <;> simp only <;> split <;> rfl
  unfold read_string
  simp only [h]
  refine (Dec.read_len_varint (DecEntry.getSelf _)).imp ?_
  rintro x a ⟨body, h1, h2⟩
  refine ⟨body, h1, ?_⟩
  by_cases hu : utf8Ok body = true
  · rw [if_pos hu] at h2; exact ⟨(utf8Ok_iff body).mp hu, by cases h2; rfl⟩
  · rw [if_neg hu] at h2; cases h2

theorem dec_readTyp (hrd : ∀ m, DecEntry C.T (rd m) (sub m)) (t : FieldType) :
    Dec C.T (readTyp C rd t) (DecTyp C sub t) := by
  have hm : ∀ {α : Type} {p : Bytes → RM α} {D : Bytes → α → Prop} (f : α → RVal), Dec C.T p D →
      Dec C.T (fun b => do let x ← p b; pure (f x)) (fun x c => ∃ a, D x a ∧ c = f a) := fun f hp => Dec.map hp f
  have v32 := Dec.read_varint32 (T := C.T)
  have v64 := Dec.read_varint64 (T := C.T)
  have f32 := Dec.read_fixed (T := C.T) (len := 4) (by omega) leRead32
  have f64 := Dec.read_fixed (T := C.T) (len := 8) (by omega) leRead64
  have e32 : ∀ x c, (∃ a, (x.length = 4 ∧ a = leRead32 x) ∧ c = RVal.w32 a) →
      x.length = 4 ∧ c = .w32 (BitVec.ofNat 32 (leVal x)) := by
    rintro x c ⟨a, ⟨h1, rfl⟩, rfl⟩; exact ⟨h1, by rw [leRead32_eq h1]⟩
  have e64 : ∀ x c, (∃ a, (x.length = 8 ∧ a = leRead64 x) ∧ c = RVal.w64 a) →
      x.length = 8 ∧ c = .w64 (BitVec.ofNat 64 (leVal x)) := by
    rintro x c ⟨a, ⟨h1, rfl⟩, rfl⟩; exact ⟨h1, by rw [leRead64_eq h1]⟩
  have i32 : ∀ x c, (∃ a, (IsVarint x ∧ a = BitVec.ofNat 32 (varintVal x)) ∧ c = RVal.w32 a) →
      IsVarint x ∧ c = .w32 (BitVec.ofNat 32 (varintVal x)) := by
    rintro x c ⟨a, ⟨h1, rfl⟩, rfl⟩; exact ⟨h1, rfl⟩
  have i64 : ∀ x c, (∃ a, (IsVarint x ∧ a = BitVec.ofNat 64 (varintVal x)) ∧ c = RVal.w64 a) →
      IsVarint x ∧ c = .w64 (BitVec.ofNat 64 (varintVal x)) := by
    rintro x c ⟨a, ⟨h1, rfl⟩, rfl⟩; exact ⟨h1, rfl⟩
  have str : ∀ x c, (∃ a, (∃ body, Delimited x body ∧ ValidUtf8 body ∧ a = body) ∧ c = RVal.bytes a) →
      ∃ body, Delimited x body ∧ ValidUtf8 body ∧ c = .bytes body := by
    rintro x c ⟨a, ⟨body, h1, h2, rfl⟩, rfl⟩; exact ⟨_, h1, h2, rfl⟩
  have byt : ∀ x c, (∃ a, (∃ body, Delimited x body ∧ a = body) ∧ c = RVal.bytes a) →
      ∃ body, Delimited x body ∧ c = .bytes body := by
    rintro x c ⟨a, ⟨body, h1, rfl⟩, rfl⟩; exact ⟨_, h1, rfl⟩
  cases t
  case int32 => exact (hm RVal.w32 v32).imp i32
  case int64 => exact (hm RVal.w64 v64).imp i64
  case uint32 => exact (hm RVal.w32 v32).imp i32
  case uint64 => exact (hm RVal.w64 v64).imp i64
  case sint32 =>
    refine (hm RVal.w32 (Dec.map v32 _)).imp ?_
    rintro x c ⟨a, ⟨n, ⟨h1, rfl⟩, rfl⟩, rfl⟩
    exact ⟨h1, _, rfl, by rw [zigzag_unzigzag32, BitVec.toNat_ofNat]⟩
  case sint64 =>
    refine (hm RVal.w64 (Dec.map v64 _)).imp ?_
    rintro x c ⟨a, ⟨n, ⟨h1, rfl⟩, rfl⟩, rfl⟩
    exact ⟨h1, _, rfl, by rw [zigzag_unzigzag64, BitVec.toNat_ofNat]⟩
  case bool =>
    refine (hm RVal.bool (Dec.map v32 _)).imp ?_
    rintro x c ⟨a, ⟨n, ⟨h1, rfl⟩, rfl⟩, rfl⟩
    exact ⟨h1, by rw [bne_zero32, BitVec.toNat_ofNat]⟩
  case enum e =>
    refine (hm RVal.w32 (Dec.map v32 _)).imp ?_
    rintro x c ⟨a, ⟨n, ⟨h1, rfl⟩, rfl⟩, rfl⟩
    refine ⟨h1, ?_⟩
    unfold enumFrom
    by_cases h : BitVec.ofNat 32 (varintVal x) ∈ C.enumNums e
    · rw [if_pos h]; exact Or.inl ⟨h, rfl⟩
    · rw [if_neg h]; exact Or.inr ⟨h, rfl⟩
  case fixed64 => exact (hm RVal.w64 f64).imp e64
  case sfixed64 => exact (hm RVal.w64 f64).imp e64
  case double => exact (hm RVal.w64 f64).imp e64
  case fixed32 => exact (hm RVal.w32 f32).imp e32
  case sfixed32 => exact (hm RVal.w32 f32).imp e32
  case float => exact (hm RVal.w32 f32).imp e32
  case stringCow => exact (hm RVal.bytes dec_string).imp str
  case string_ => exact (hm RVal.bytes dec_string).imp str
  case bytesCow => exact (hm RVal.bytes dec_bytes).imp byt
  case bytes_ => exact (hm RVal.bytes dec_bytes).imp byt
  case message m => exact Dec.read_len_varint (hrd m)
  case messageOrEnum => exact Dec.lift (fun a h => by cases h)
  case map => exact Dec.lift (fun a h => by cases h)

theorem foldl_push_rev {U : Type} (us acc : List U) :
    (us.foldl (fun acc u => u :: acc) acc).reverse = acc.reverse ++ us := by
  induction us generalizing acc with
  | nil => simp
  | cons u us ih => simp [ih]

theorem foldl_parts (us : List (Bool × RVal)) (k v : RVal) :
    us.foldl (fun kv u => if u.1 then (kv.1, u.2) else (u.2, kv.2)) (k, v)
      = (lastPart false k us, lastPart true v us) := by
  induction us generalizing k v with
  | nil => rfl
  | cons u us ih =>
    obtain ⟨w, x⟩ := u
    have key : ∀ d, lastPart w d ((w, x) :: us) = lastPart w x us := by
      intro d
      unfold lastPart
      simp only [List.filter_cons, beq_self_eq_true, if_true]
      cases h : us.filter (fun u => u.1 == w) with
      | nil => rfl
      | cons y l => simp [List.getLast?_cons_cons, List.getLast?_cons]
    have key2 : ∀ d, lastPart (!w) d ((w, x) :: us) = lastPart (!w) d us := by
      intro d
      unfold lastPart
      have : ((w == !w) = false) := by cases w <;> rfl
      simp [List.filter_cons, this]
    rw [List.foldl_cons]
    cases w
    · simp only [Bool.false_eq_true, if_false]; rw [ih, key]; exact congrArg _ (key2 v).symm
    · simp only [if_true]; rw [ih, key]; exact congrArg (·, _) (key2 k).symm

theorem tag_shift (t : Byte) (k : Nat) (hk : k < 32) : t >>> 3 = BitVec.ofNat 8 k ↔ t.toNat / 8 = k := by
  have := t.isLt
  rw [← BitVec.toNat_inj, BitVec.toNat_ushiftRight, Nat.shiftRight_eq_div_pow, BitVec.toNat_ofNat]
  omega

theorem dec_armRead (hT : C.T.overflowChecks = true) (hrd : ∀ m, DecEntry C.T (rd m) (sub m)) (fuel : Nat)
    (a : Arm) : Dec C.T (armRead C rd fuel a) (DecArm C sub a) := by
  have hr := dec_readTyp (C := C) hrd
  unfold armRead
  have e : DecArm C sub a = fun p x => DecArm C sub a p x := rfl
  rw [e]
  unfold DecArm
  refine Dec.ite (fun _ => hr _) (fun _ => ?_)
  cases a.field.frequency.generated
  · exact hr _
  · refine Dec.ite (fun _ => ?_) (fun _ => hr _)
    by_cases hfx : a.field.typ.isFixedSize = true
    · simp only [if_pos hfx]
      by_cases hw : a.field.typ.wireTypeNumNonPacked = 1
      · simp only [if_pos hw]
        refine (Dec.map (Dec.read_packed_fixed hT (MemTy.int C.T 8)) RVal.pf64).imp ?_
        rintro x c ⟨a, ⟨body, h1, rfl⟩, rfl⟩
        exact ⟨body, h1, rfl⟩
      · simp only [if_neg hw]
        refine (Dec.map (Dec.read_packed_fixed hT (MemTy.int C.T 4)) RVal.pf32).imp ?_
        rintro x c ⟨a, ⟨body, h1, rfl⟩, rfl⟩
        exact ⟨body, h1, rfl⟩
    · simp only [if_neg hfx]
      refine (Dec.map (Dec.read_len_varint (DecEntry.map (DecEntry.loop
        (step := fun b acc => (do let m ← readTyp C rd a.field.typ b; pure (m :: acc)))
        (R := DecTyp C sub a.field.typ) (upd := fun acc u => u :: acc)
        (fun acc => (Dec.map (hr _) (fun m => m :: acc)).imp (fun x c h => h)) fuel []) (fun v => v.reverse))) RVal.vec).imp ?_
      rintro x c ⟨a, ⟨body, h1, l, ⟨us, h2, rfl⟩, rfl⟩, rfl⟩
      exact ⟨body, h1, us, h2, by rw [foldl_push_rev]; rfl⟩
  · cases ht : a.field.typ
    case map k v =>
      simp only
      refine (Dec.map (Dec.read_len_varint (DecEntry.loop (R := DecPart C sub k v)
        (upd := fun kv u => if u.1 then (kv.1, u.2) else (u.2, kv.2))
        (step := fun b (kv : RVal × RVal) => (do
          let t ← read_u8 b
          let n := t >>> 3
          if n = 1#8 then do
            let k ← readTyp C rd k b
            pure (k, kv.2)
          else if n = 2#8 then do
            let v ← readTyp C rd v b
            pure (kv.1, v)
          else SM.throw (.Map n))) (fun kv => ?_) fuel (typDefault C k, typDefault C v))) (fun kv => RVal.map [kv])).imp ?_
      · refine (Dec.bind Dec.read_u8 (E := fun t x (kv' : RVal × RVal) => ∃ u : Bool × RVal,
            ((t.toNat / 8 = 1 ∧ u.1 = false ∧ DecTyp C sub k x u.2) ∨
            (t.toNat / 8 = 2 ∧ u.1 = true ∧ DecTyp C sub v x u.2)) ∧
            kv' = if u.1 then (kv.1, u.2) else (u.2, kv.2)) (fun t => ?_)).imp ?_
        · refine (Dec.ite (fun _ => Dec.map (hr k) (fun k => (k, kv.2)))
            (fun _ => Dec.ite (fun _ => Dec.map (hr v) (fun v => (kv.1, v)))
              (fun _ => Dec.lift (o := .err _) (D := fun _ _ => False) (fun a h => by cases h)))).imp ?_
          intro x kv' h
          by_cases h1 : t >>> 3 = 1#8
          · rw [if_pos h1] at h
            obtain ⟨y, hy, rfl⟩ := h
            exact ⟨(false, y), Or.inl ⟨(tag_shift t 1 (by omega)).mp h1, rfl, hy⟩, rfl⟩
          · rw [if_neg h1] at h
            by_cases h2 : t >>> 3 = 2#8
            · rw [if_pos h2] at h
              obtain ⟨y, hy, rfl⟩ := h
              exact ⟨(true, y), Or.inr ⟨(tag_shift t 2 (by omega)).mp h2, rfl, hy⟩, rfl⟩
            · rw [if_neg h2] at h; exact h.elim
        · rintro x kv' ⟨y, z, t, rfl, rfl, u, hu, rfl⟩
          exact ⟨u, ⟨t, z, rfl, hu⟩, rfl⟩
      · rintro x c ⟨kv, ⟨body, h1, us, h2, rfl⟩, rfl⟩
        exact ⟨k, v, body, us, rfl, h1, h2, by rw [foldl_parts]⟩
    all_goals exact Dec.lift (fun a h => by cases h)


theorem fieldTag_lt {cfg : Config} {m : Message} (hok : MessageOk cfg m) {a : Arm} (ha : a ∈ arms cfg m)
    (n : Nat) : fieldTag a.field = n % 2 ^ 32 ↔ a.field.tag = BitVec.ofNat 32 n := by
  rw [← fieldTag_eq (arm_number hok ha), ← BitVec.toNat_inj, BitVec.toNat_ofNat]

theorem dec_msgStep (hT : C.T.overflowChecks = true) (hrd : ∀ m, DecEntry C.T (rd m) (sub m)) (fuel : Nat)
    {m : Message} (hok : MessageOk C.cfg m) (slots : List RVal) :
    Dec C.T (fun b => msgStep C rd fuel (arms C.cfg m) b slots)
      (fun x slots' => ∃ u, Record C sub m x u ∧ slots' = u.elim slots (applyItem slots)) := by
  unfold msgStep
  refine (Dec.bind Dec.read_varint32 (E := fun t x slots' => ∃ u : Option Item,
    ((∃ a ∈ arms C.cfg m, ∃ y, a.field.tag = t ∧ DecArm C sub a x y ∧ u = Option.some (a, y)) ∨
     ((∀ a ∈ arms C.cfg m, a.field.tag ≠ t) ∧ Payload (t.toNat % 8) x ∧ u = Option.none)) ∧
     slots' = u.elim slots (applyItem slots)) (fun t => ?_)).imp ?_
  · cases hf : (arms C.cfg m).find? (fun a => a.field.tag == t) with
    | none =>
      refine (Dec.map (Dec.read_unknown hT t) (fun _ => slots)).imp ?_
      rintro x s ⟨_, h1, rfl⟩
      refine ⟨Option.none, Or.inr ⟨?_, h1, rfl⟩, rfl⟩
      rw [List.find?_eq_none] at hf
      intro a ha hta
      exact hf a ha (by simp [hta])
    | some a =>
      refine (Dec.map (dec_armRead hT hrd fuel a)
        (fun v => setSlot a.slot (fun old => armApply a old v) slots)).imp ?_
      rintro x s ⟨y, h1, rfl⟩
      exact ⟨Option.some (a, y), Or.inl ⟨a, List.mem_of_find?_eq_some hf, y,
        by simpa using List.find?_some hf, h1, rfl⟩, rfl⟩
  · rintro x s ⟨g, p, t, rfl, ⟨hg, rfl⟩, u, hu, rfl⟩
    refine ⟨u, ⟨g, p, hg, rfl, ?_⟩, rfl⟩
    rcases hu with ⟨a, ha, y, h1, h2, rfl⟩ | ⟨h1, h2, rfl⟩
    · exact Or.inl ⟨a, ha, y, (fieldTag_lt hok ha _).mpr h1, h2, rfl⟩
    · refine Or.inr ⟨fun a ha h => h1 a ha ((fieldTag_lt hok ha _).mp h), ?_, rfl⟩
      rw [BitVec.toNat_ofNat] at h2
      rwa [Nat.mod_mod_of_dvd _ (by decide)] at h2

end

/-! ## Storing records -/

theorem memberArms_cases {mem : Member} {j : Nat} {a : Arm} (h : a ∈ memberArms mem j) :
    (a.choice.isSome = true) ∨ memberArms mem j = [a] ∧ a.choice = Option.none := by
  cases mem with
  | field f =>
    simp only [memberArms, List.mem_singleton] at h
    exact Or.inr ⟨by rw [h]; rfl, by rw [h]⟩
  | oneof fs =>
    simp only [memberArms, List.mem_map] at h
    obtain ⟨⟨f, i⟩, _, rfl⟩ := h
    exact Or.inl rfl

theorem snoc_induction {α : Type} {P : List α → Prop} (h0 : P []) (h1 : ∀ l a, P l → P (l ++ [a])) :
    ∀ l, P l := by
  intro l
  rw [← List.reverse_reverse l]
  generalize l.reverse = r
  induction r with
  | nil => exact h0
  | cons a r ih => rw [List.reverse_cons]; exact h1 _ _ ih

/-- Storing the records of one member one after the other is `memberAfter`. -/
theorem foldl_armApply (mem : Member) (j : Nat) (its : List Item) (h : ∀ it ∈ its, it.1 ∈ memberArms mem j)
    (d : RVal) : its.foldl (fun d it => armApply it.1 d it.2) d = memberAfter d its := by
  revert h
  refine snoc_induction (P := fun its => (∀ it ∈ its, it.1 ∈ memberArms mem j) →
    its.foldl (fun d it => armApply it.1 d it.2) d = memberAfter d its) (fun _ => rfl) ?_ its
  · intro its it ih h
    have ih := ih (fun x hx => h x (by simp [hx]))
    obtain ⟨a, x⟩ := it
    rw [List.foldl_append, ih, List.foldl_cons, List.foldl_nil]
    simp only [memberAfter, List.getLast?_append, List.getLast?_singleton, Option.some_or]
    have ha := h (a, x) (by simp)
    rcases memberArms_cases ha with hc | ⟨h1, hc⟩
    · unfold armApply
      obtain ⟨i, hi⟩ := Option.isSome_iff_exists.mp hc
      show (match a.choice with | Option.some i => _ | Option.none => _) = _
      rw [hi]
    · have hall : ∀ it ∈ its, it.1 = a := by
        intro it hit
        have := h it (by simp [hit])
        rw [h1] at this
        simpa using this
      unfold armApply
      rw [hc]
      simp only
      by_cases hb : a.field.boxed = true
      · simp only [hb, if_true]
      simp only [hb, if_false, Bool.false_eq_true]
      cases hg : a.field.frequency.generated with
      | singular => rfl
      | arrayLike =>
        simp only
        by_cases hp : a.field.isPacked = true
        · simp only [hp, if_true]
        simp only [hp, if_false, Bool.false_eq_true]
        rcases hl : its.getLast? with _ | ⟨a', x'⟩
        · rw [List.getLast?_eq_none_iff] at hl
          subst hl
          cases d <;> simp
        · have haa : a' = a := hall (a', x') (List.mem_of_getLast? hl)
          subst haa
          have hc : a'.choice = Option.none := hc
          simp only [hc, hb, hg, hp, if_false, Bool.false_eq_true]
          clear ih h hall
          cases d <;> simp
      | map =>
        simp only
        rcases hl : its.getLast? with _ | ⟨a', x'⟩
        · rw [List.getLast?_eq_none_iff] at hl
          subst hl
          cases d <;> try rfl
          rename_i dl
          cases x <;> try rfl
          rename_i l
          rcases l with _ | ⟨⟨k, v⟩, _ | _⟩ <;> rfl
        · have haa : a' = a := hall (a', x') (List.mem_of_getLast? hl)
          subst haa
          have hc : a'.choice = Option.none := hc
          simp only [hc, hb, hg, if_false, Bool.false_eq_true]
          clear ih h hall
          cases d <;> try rfl
          simp only
          rw [List.foldl_append, List.foldl_cons, List.foldl_nil]
          cases x <;> try rfl
          rename_i l
          rcases l with _ | ⟨⟨k, v⟩, _ | _⟩ <;> rfl

theorem applyItem_getElem (slots : List RVal) (it : Item) (j : Nat) :
    (applyItem slots it)[j]? =
      (slots[j]?).map (fun d => if it.1.slot = j then armApply it.1 d it.2 else d) := by
  unfold applyItem setSlot
  rw [List.getElem?_modify]; rfl

theorem foldl_applyItem_getElem (its : List Item) (slots : List RVal) (j : Nat) :
    (its.foldl applyItem slots)[j]? =
      (slots[j]?).map (fun d => (its.filter (·.1.slot == j)).foldl (fun d it => armApply it.1 d it.2) d) := by
  induction its generalizing slots with
  | nil => simp
  | cons it its ih =>
    rw [List.foldl_cons, ih, applyItem_getElem, Option.map_map]
    congr 1
    funext d
    by_cases h : it.1.slot = j
    · simp [h]
    · simp [h]

theorem foldl_elim (us : List (Option Item)) (slots : List RVal) :
    us.foldl (fun s u => u.elim s (applyItem s)) slots = (us.filterMap id).foldl applyItem slots := by
  induction us generalizing slots with
  | nil => rfl
  | cons u us ih => cases u <;> simp [ih]

/-- Storing records one after the other is `slotsAfter`. -/
theorem foldl_slotsAfter {cfg : Config} {m : Message} (us : List (Option Item))
    (h : ∀ it, Option.some it ∈ us → it.1 ∈ arms cfg m) (slots : List RVal) :
    us.foldl (fun s u => u.elim s (applyItem s)) slots = slotsAfter slots us := by
  rw [foldl_elim]
  apply List.ext_getElem?
  intro j
  rw [foldl_applyItem_getElem, slotsAfter, List.getElem?_mapIdx]
  congr 1
  funext d
  cases hm : (members cfg m)[j]? with
  | some mem =>
    refine foldl_armApply mem j _ ?_ d
    intro it hit
    simp only [List.mem_filter, List.mem_filterMap, id_eq, exists_eq_right, beq_iff_eq] at hit
    obtain ⟨mem', h1, h2⟩ := mem_arms.mp (h it hit.1)
    rw [hit.2] at h1 h2
    rw [hm] at h1
    cases h1
    exact h2
  | none =>
    have : (us.filterMap id).filter (·.1.slot == j) = [] := by
      rw [List.filter_eq_nil_iff]
      intro it hit
      simp only [List.mem_filterMap, id_eq, exists_eq_right] at hit
      obtain ⟨mem', h1, h2⟩ := mem_arms.mp (h it hit)
      simp only [beq_iff_eq]
      intro hj
      rw [hj, hm] at h1
      cases h1
    rw [this]; rfl

theorem Record.arm {C : Ctx} {sub : MessageIndex → Bytes → RVal → Prop} {m : Message} {r : Bytes} {it : Item}
    (h : Record C sub m r (Option.some it)) : it.1 ∈ arms C.cfg m := by
  obtain ⟨g, p, _, _, h⟩ := h
  rcases h with ⟨a, ha, x, _, _, h⟩ | ⟨_, _, h⟩
  · cases h; exact ha
  · cases h

theorem Parses.mem {U : Type} {R : Bytes → U → Prop} {b : Bytes} {us : List U} (h : Parses R b us) {u : U}
    (hu : u ∈ us) : ∃ p, R p u := by
  induction h with
  | nil => simp at hu
  | cons h1 _ ih =>
    rcases List.mem_cons.mp hu with rfl | hu
    · exact ⟨_, h1⟩
    · exact ih hu

theorem Parses.arms {C : Ctx} {sub : MessageIndex → Bytes → RVal → Prop} {m : Message} {b : Bytes}
    {us : List (Option Item)} (h : Parses (Record C sub m) b us) :
    ∀ it, Option.some it ∈ us → it.1 ∈ Gen.arms C.cfg m := by
  intro it hit
  obtain ⟨p, hp⟩ := h.mem hit
  exact hp.arm

/-- With overflow checks, whatever a generated decoder accepts denotes the value it returns. -/
theorem dec_fromReader {C : Ctx} (hT : C.T.overflowChecks = true) (hS : SchemaOk C) (n : Nat) (idx : MessageIndex) :
    DecEntry C.T (fromReader C n idx) (DecMsg C n idx) := by
  induction n generalizing idx with
  | zero =>
    refine { toGoodEntry := goodEntry_fromReader hT 0 idx, sound := ?_ }
    intro b s f a r' _ _ _ h
    simp [fromReader, SM.lift_run] at h
  | succ n ih =>
    refine { toGoodEntry := goodEntry_fromReader hT _ idx, sound := ?_ }
    intro b s f a r' hR hsf hf h
    cases hm : C.D.getMessage idx with
    | none =>
      rw [fromReader_none n hm] at h
      simp [SM.lift_run] at h
    | some m =>
      refine ⟨m, hm, ?_⟩
      cases hu : m.isUnit
      · rw [fromReader_msg n hm hu] at h
        simp only [Bool.false_eq_true, if_false]
        obtain ⟨slots, r1, h1, h2⟩ := SM.bind_ok_inv h
        simp only [SM.pure_run, Prod.mk.injEq, Out.ok.injEq] at h2
        obtain ⟨rfl, rfl⟩ := h2
        obtain ⟨_, us, hp, hfold⟩ := dec_loop
          (step := fun b => msgStep C (fromReader C n) (n + 1) (Gen.arms C.cfg m) b)
          (fun s => dec_msgStep hT ih (n + 1) (hS idx m hm) s) hR
          ⟨by simp only; omega, by simp only; omega⟩ hf h1
        rw [foldl_slotsAfter us hp.arms] at hfold
        exact ⟨slots, ⟨us, hp, hfold⟩, rfl⟩
      · rw [fromReader_unit n hm hu] at h
        simp only [if_true]
        simp only [read_to_end, SM.bind_run, SM.get_run, SM.set_run, SM.pure_run, Prod.mk.injEq,
          Out.ok.injEq] at h
        exact h.1.symm

/-! ## Completeness -/

section
variable {C : Ctx} {rd : MessageIndex → Bytes → RM RVal} {sub : MessageIndex → Bytes → RVal → Prop}

theorem reads_delimited {T : Target} {α : Type} {p : Bytes → RM α} {x body : Bytes} {a : α} (hx : Delimited x body)
    (hp : ReadsAll T p body a) : ReadsAs T (fun b => read_len_varint T b (p b)) x a := by
  obtain ⟨g, hg, hl, rfl⟩ := hx
  unfold read_len_varint
  refine ReadsAs.bind (reads_isVarint32 hg) ?_ (q := fun len bs => read_len T (p bs) len.toNat)
  rw [show (BitVec.ofNat 32 (varintVal g)).toNat = body.length by rw [BitVec.toNat_ofNat, hl]]
  exact readsAs_len hp.weak

theorem reads_getSelf {T : Target} {x body : Bytes} (hx : Delimited x body) : ReadsAs T (read_bytes T) x body := by
  obtain ⟨g, hg, hl, rfl⟩ := hx
  unfold read_bytes read_len_varint
  refine ReadsAs.bind (reads_isVarint32 hg) ?_ (q := fun len bs => read_len T (getSelf bs) len.toNat)
  rw [show (BitVec.ofNat 32 (varintVal g)).toNat = body.length by rw [BitVec.toNat_ofNat, hl]]
  exact readsAs_len (fun pre suf _ => ⟨_, getSelf_reads body pre suf⟩)

theorem reads_string_of {T : Target} {x body : Bytes} (hx : Delimited x body) (hu : ValidUtf8 body) :
    ReadsAs T (read_string T) x body := by
  obtain ⟨g, hg, hl, rfl⟩ := hx
  unfold read_string read_len_varint
  refine ReadsAs.bind (reads_isVarint32 hg) ?_ (q := fun len bs => read_len T (do
    let x ← getSelf bs
    if utf8Ok x then pure x else SM.throw .Utf8) len.toNat)
  rw [show (BitVec.ofNat 32 (varintVal g)).toNat = body.length by rw [BitVec.toNat_ofNat, hl]]
  refine readsAs_len (fun pre suf _ => ⟨pre.length, ?_⟩)
  rw [SM.bind_ok (getSelf_reads body pre suf), if_pos ((utf8Ok_iff body).mpr hu)]
  rfl

/-- Whatever denotes a value of a type is read as that value. -/
theorem readTyp_of_dec {t : FieldType} {p : Bytes} {x : RVal}
    (hrd : ∀ m body v, body.length < p.length → sub m body v → ReadsAll C.T (rd m) body v)
    (h : DecTyp C sub t p x) : ReadsAs C.T (readTyp C rd t) p x := by
  have e32 : p.length = 4 ∧ x = .w32 (BitVec.ofNat 32 (leVal p)) →
      ReadsAs C.T (fun b => do let y ← read_fixed C.T b 4 leRead32; pure (RVal.w32 y)) p x := by
    rintro ⟨h1, rfl⟩
    rw [← leRead32_eq h1, ← h1]
    exact ReadsAs.map RVal.w32 (reads_fixed leRead32 p)
  have e64 : p.length = 8 ∧ x = .w64 (BitVec.ofNat 64 (leVal p)) →
      ReadsAs C.T (fun b => do let y ← read_fixed C.T b 8 leRead64; pure (RVal.w64 y)) p x := by
    rintro ⟨h1, rfl⟩
    rw [← leRead64_eq h1, ← h1]
    exact ReadsAs.map RVal.w64 (reads_fixed leRead64 p)
  have i32 : IsVarint p ∧ x = .w32 (BitVec.ofNat 32 (varintVal p)) →
      ReadsAs C.T (fun b => do let y ← read_varint32 b; pure (RVal.w32 y)) p x := by
    rintro ⟨h1, rfl⟩; exact ReadsAs.map RVal.w32 (reads_isVarint32 h1)
  have i64 : IsVarint p ∧ x = .w64 (BitVec.ofNat 64 (varintVal p)) →
      ReadsAs C.T (fun b => do let y ← read_varint64 b; pure (RVal.w64 y)) p x := by
    rintro ⟨h1, rfl⟩; exact ReadsAs.map RVal.w64 (reads_isVarint64 h1)
  have str : (∃ body, Delimited p body ∧ ValidUtf8 body ∧ x = .bytes body) →
      ReadsAs C.T (fun b => do let y ← read_string C.T b; pure (RVal.bytes y)) p x := by
    rintro ⟨body, h1, h2, rfl⟩; exact ReadsAs.map RVal.bytes (reads_string_of h1 h2)
  have byt : (∃ body, Delimited p body ∧ x = .bytes body) →
      ReadsAs C.T (fun b => do let y ← read_bytes C.T b; pure (RVal.bytes y)) p x := by
    rintro ⟨body, h1, rfl⟩; exact ReadsAs.map RVal.bytes (reads_getSelf h1)
  cases t
  case int32 => exact i32 h
  case int64 => exact i64 h
  case uint32 => exact i32 h
  case uint64 => exact i64 h
  case sint32 =>
    obtain ⟨h1, y, rfl, hy⟩ := h
    have : y = ((BitVec.ofNat 32 (varintVal p)) >>> 1) ^^^ (-((BitVec.ofNat 32 (varintVal p)) &&& 1#32)) := by
      rw [← BitVec.toInt_inj]; apply zigzag_inj; rw [zigzag_unzigzag32, hy, BitVec.toNat_ofNat]
    rw [this]
    exact ReadsAs.map RVal.w32 (ReadsAs.map (fun n : BitVec 32 => (n >>> 1) ^^^ (-(n &&& 1#32))) (reads_isVarint32 h1))
  case sint64 =>
    obtain ⟨h1, y, rfl, hy⟩ := h
    have : y = ((BitVec.ofNat 64 (varintVal p)) >>> 1) ^^^ (-((BitVec.ofNat 64 (varintVal p)) &&& 1#64)) := by
      rw [← BitVec.toInt_inj]; apply zigzag_inj; rw [zigzag_unzigzag64, hy, BitVec.toNat_ofNat]
    rw [this]
    exact ReadsAs.map RVal.w64 (ReadsAs.map (fun n : BitVec 64 => (n >>> 1) ^^^ (-(n &&& 1#64))) (reads_isVarint64 h1))
  case bool =>
    obtain ⟨h1, rfl⟩ := h
    have := ReadsAs.map (T := C.T) RVal.bool (ReadsAs.map (fun n : BitVec 32 => n != 0#32) (reads_isVarint32 h1))
    rw [bne_zero32, BitVec.toNat_ofNat] at this
    exact this
  case enum e =>
    obtain ⟨h1, h2⟩ := h
    have := ReadsAs.map (T := C.T) RVal.w32 (ReadsAs.map (enumFrom (C.enumNums e)) (reads_isVarint32 h1))
    have hx : x = RVal.w32 (enumFrom (C.enumNums e) (BitVec.ofNat 32 (varintVal p))) := by
      unfold enumFrom
      rcases h2 with ⟨h, rfl⟩ | ⟨h, rfl⟩
      · rw [if_pos h]
      · rw [if_neg h]; rfl
    rw [hx]
    exact this
  case fixed64 => exact e64 h
  case sfixed64 => exact e64 h
  case double => exact e64 h
  case fixed32 => exact e32 h
  case sfixed32 => exact e32 h
  case float => exact e32 h
  case stringCow => exact str h
  case string_ => exact str h
  case bytesCow => exact byt h
  case bytes_ => exact byt h
  case message m =>
    obtain ⟨body, h1, h2⟩ := h
    exact reads_delimited h1 (hrd m body x h1.length h2)
  case messageOrEnum => exact h.elim
  case map => exact h.elim

theorem decTyp_ne_nil {t : FieldType} {p : Bytes} {x : RVal} (h : DecTyp C sub t p x) : p ≠ [] := by
  have hd : ∀ body, Delimited p body → p ≠ [] := by
    intro body h hn
    have := h.length
    rw [hn] at this
    simp at this
  cases t <;> simp only [DecTyp] at h
  all_goals first
    | exact IsVarint.ne_nil h.1
    | (intro hn; rw [hn] at h; simp at h; done)
    | (obtain ⟨body, h1, _⟩ := h; exact hd _ h1)

/-- Loops over pieces. -/
theorem loop_of_parses {T : Target} {A U : Type} {R : Bytes → U → Prop} {upd : A → U → A}
    {step : Bytes → A → RM A} {b : Bytes} {us : List U} (h : Parses R b us) (hne : ∀ p u, R p u → p ≠ [])
    (hs : ∀ p u acc, p.length ≤ b.length → R p u → ReadsAs T (fun b => step b acc) p (upd acc u)) (acc : A) (fuel : Nat)
    (hf : b.length < fuel) :
    ReadsAll T (fun b => whileNotEof (step b) fuel acc) b (us.foldl upd acc) := by
  obtain ⟨l, rfl, rfl, hl⟩ := h.list
  rw [List.foldl_map]
  have hlen : ∀ l : List (Bytes × U), (∀ x ∈ l, R x.1 x.2) → l.length ≤ (l.flatMap (·.1)).length := by
    intro l
    induction l with
    | nil => simp
    | cons x l ih =>
      intro h
      have h1 := ih (fun y hy => h y (by simp [hy]))
      have h2 := List.length_pos_iff.mpr (hne _ _ (h x (by simp)))
      simp only [List.flatMap_cons, List.length_append, List.length_cons]
      omega
  refine readsAll_loop l (enc := (·.1)) (upd := fun acc x => upd acc x.2) (fun i hi => hne _ _ (hl i hi)) ?_ acc fuel
    (Nat.lt_of_le_of_lt (hlen l hl) hf)
  intro i hi acc
  refine hs i.1 i.2 acc ?_ (hl i hi)
  obtain ⟨l1, l2, rfl⟩ := List.append_of_mem hi
  simp only [List.flatMap_append, List.flatMap_cons, List.length_append]
  omega

theorem ReadsAll.map {T : Target} {α β : Type} {p : Bytes → RM α} {x : Bytes} {a : α} (h : ReadsAll T p x a)
    (f : α → β) : ReadsAll T (fun b => do let a ← p b; pure (f a)) x (f a) := by
  intro pre suf hl
  exact (SM.bind_ok (h pre suf hl)).trans (by rw [SM.pure_run])

theorem armRead_of_dec {a : Arm} {p : Bytes} {x : RVal} {fuel : Nat}
    (hrd : ∀ m body v, body.length < p.length → sub m body v → ReadsAll C.T (rd m) body v)
    (hf : p.length ≤ fuel) (h : DecArm C sub a p x) : ReadsAs C.T (armRead C rd fuel a) p x := by
  unfold DecArm at h
  unfold armRead
  by_cases h0 : (a.choice.isSome || a.field.boxed) = true
  · simp only [h0, if_true] at h ⊢
    exact readTyp_of_dec hrd h
  simp only [h0, Bool.false_eq_true, if_false] at h ⊢
  cases hg : a.field.frequency.generated with
  | singular =>
    simp only [hg] at h ⊢
    exact readTyp_of_dec hrd h
  | arrayLike =>
    simp only [hg] at h ⊢
    by_cases hp : a.field.isPacked = true
    · simp only [hp, if_true] at h ⊢
      obtain ⟨body, hd, h⟩ := h
      have hbl := hd.length
      by_cases hfx : a.field.typ.isFixedSize = true
      · simp only [hfx, if_true] at h ⊢
        by_cases hw : a.field.typ.wireTypeNumNonPacked = 1
        · simp only [hw, if_true] at h ⊢
          subst h
          obtain ⟨g, hg1, hg2, rfl⟩ := hd
          exact ReadsAs.map RVal.pf64 (reads_packed_fixed_raw (MemTy.int C.T 8) (by simp [MemTy.int]) hg1 hg2)
        · simp only [hw, if_false] at h ⊢
          subst h
          obtain ⟨g, hg1, hg2, rfl⟩ := hd
          exact ReadsAs.map RVal.pf32 (reads_packed_fixed_raw (MemTy.int C.T 4) (by simp [MemTy.int]) hg1 hg2)
      · simp only [hfx, Bool.false_eq_true, if_false] at h ⊢
        obtain ⟨l, hl, rfl⟩ := h
        refine ReadsAs.map RVal.vec ?_
        unfold read_packed
        have := loop_of_parses (T := C.T) (upd := fun acc u => u :: acc)
          (step := fun b acc => (do let m ← readTyp C rd a.field.typ b; pure (m :: acc))) hl
          (fun p u => decTyp_ne_nil) (fun q u acc hq hu => ReadsAs.map (fun m => m :: acc)
            (readTyp_of_dec (fun m body v hb => hrd m body v (by omega)) hu)) [] fuel (by omega)
        have := ReadsAll.map this (fun v => v.reverse)
        rw [foldl_push_rev] at this
        exact reads_delimited (p := fun b => (do
          let v ← whileNotEof (fun (acc : List RVal) => do let m ← readTyp C rd a.field.typ b; pure (m :: acc)) fuel []
          pure v.reverse)) hd this
    · simp only [hp, Bool.false_eq_true, if_false] at h ⊢
      exact readTyp_of_dec hrd h
  | map =>
    simp only [hg] at h ⊢
    obtain ⟨k, v, body, us, ht, hd, hp, rfl⟩ := h
    have hbl := hd.length
    simp only [ht]
    refine ReadsAs.map (fun kv => RVal.map [kv]) ?_
    rw [← foldl_parts]
    unfold read_map
    refine reads_delimited hd (p := fun b => whileNotEof (fun (kv : RVal × RVal) => (do
        let t ← read_u8 b
        let n := t >>> 3
        if n = 1#8 then do
          let k ← readTyp C rd k b
          pure (k, kv.2)
        else if n = 2#8 then do
          let v ← readTyp C rd v b
          pure (kv.1, v)
        else SM.throw (.Map n))) fuel (typDefault C k, typDefault C v)) ?_
    refine loop_of_parses (T := C.T) (upd := fun kv (u : Bool × RVal) => if u.1 then (kv.1, u.2) else (u.2, kv.2))
      (step := fun b (kv : RVal × RVal) => (do
        let t ← read_u8 b
        let n := t >>> 3
        if n = 1#8 then do
          let k ← readTyp C rd k b
          pure (k, kv.2)
        else if n = 2#8 then do
          let v ← readTyp C rd v b
          pure (kv.1, v)
        else SM.throw (.Map n))) hp ?_ ?_ _ fuel (by omega)
    · rintro q u ⟨t, q', rfl, _⟩; simp
    · rintro q u kv hq ⟨t, q', rfl, hu⟩
      refine ReadsAs.bind (T := C.T) (p := read_u8) (a := t) (x := [t]) (ReadsAs.u8 t) ?_ (q := fun t b => (
        let n := t >>> 3
        if n = 1#8 then do
          let k ← readTyp C rd k b
          pure (k, kv.2)
        else if n = 2#8 then do
          let v ← readTyp C rd v b
          pure (kv.1, v)
        else SM.throw (.Map n)))
      simp only [List.length_cons] at hq
      rcases hu with ⟨h1, h2, h3⟩ | ⟨h1, h2, h3⟩
      · simp only [(tag_shift t 1 (by omega)).mpr h1, if_true, h2, Bool.false_eq_true, if_false]
        exact ReadsAs.map (fun k => (k, kv.2)) (readTyp_of_dec (fun m body v hb => hrd m body v (by omega)) h3)
      · simp only [(tag_shift t 2 (by omega)).mpr h1, if_true, h2]
        simp only [show ¬ (2#8 = 1#8) by decide, if_false]
        exact ReadsAs.map (fun v => (kv.1, v)) (readTyp_of_dec (fun m body v hb => hrd m body v (by omega)) h3)

theorem record_ne_nil {m : Message} {r : Bytes} {u : Option Item} (h : Record C sub m r u) : r ≠ [] := by
  obtain ⟨g, p, hg, rfl, _⟩ := h
  simp [IsVarint.ne_nil hg]

theorem msgStep_of_record {m : Message} (hok : MessageOk C.cfg m) {r : Bytes} {u : Option Item} {fuel : Nat}
    (hrd : ∀ m body v, body.length < r.length → sub m body v → ReadsAll C.T (rd m) body v)
    (hf : r.length ≤ fuel) (slots : List RVal) (h : Record C sub m r u) :
    ReadsAs C.T (fun b => msgStep C rd fuel (arms C.cfg m) b slots) r (u.elim slots (applyItem slots)) := by
  obtain ⟨g, p, hg, rfl, h⟩ := h
  have hlen : p.length ≤ (g ++ p).length := by simp
  rcases h with ⟨a, ha, x, h1, h2, rfl⟩ | ⟨h1, h2, rfl⟩
  · exact msgStep_known (find_arm hok ha ((fieldTag_lt hok ha _).mp h1)) (reads_isVarint32 hg)
      (armRead_of_dec (fun m body v hb => hrd m body v (by omega)) (by omega) h2) slots
  · refine msgStep_unknown ?_ (reads_isVarint32 hg) (C15_unknown_skipped C.T _ p ?_) slots
    · rw [List.find?_eq_none]
      intro a ha
      simp only [beq_iff_eq]
      intro ht
      exact h1 a ha ((fieldTag_lt hok ha _).mpr ht)
    · rw [BitVec.toNat_ofNat, Nat.mod_mod_of_dvd _ (by decide)]
      exact h2

end

/-- The generated loop, started from any struct members, on a sequence of records. -/
theorem loop_of_merges {C : Ctx} {m : Message} (hok : MessageOk C.cfg m) {rd : MessageIndex → Bytes → RM RVal}
    {sub : MessageIndex → Bytes → RVal → Prop} {b : Bytes} {d slots : List RVal} {fuel : Nat}
    (hrd : ∀ m body v, body.length < b.length → sub m body v → ReadsAll C.T (rd m) body v)
    (hf : b.length < fuel) (h : Merges C sub m d b slots) :
    ReadsAll C.T (fun b => whileNotEof (msgStep C rd fuel (arms C.cfg m) b) fuel d) b slots := by
  obtain ⟨us, hp, rfl⟩ := h
  rw [← foldl_slotsAfter us hp.arms]
  exact loop_of_parses (step := fun b => msgStep C rd fuel (arms C.cfg m) b) hp (fun _ _ => record_ne_nil)
    (fun p u acc hpl hu => msgStep_of_record hok (fun m body v hb => hrd m body v (by omega)) (by omega) acc hu)
    d fuel hf

/-- Whatever denotes a value is decoded as that value, in every profile. -/
theorem fromReader_of_dec {C : Ctx} (hS : SchemaOk C) (n : Nat) (idx : MessageIndex) (b : Bytes) (v : RVal)
    (h : DecMsg C n idx b v) (k : Nat) (hk : b.length < k) : ReadsAll C.T (fromReader C k idx) b v := by
  induction n generalizing idx b v k with
  | zero => exact h.elim
  | succ n ih =>
    obtain ⟨m, hm, h⟩ := h
    obtain ⟨k, rfl⟩ : ∃ j, k = j + 1 := ⟨k - 1, by omega⟩
    cases hu : m.isUnit
    · rw [fromReader_msg k hm hu]
      rw [hu] at h
      obtain ⟨slots, h, rfl⟩ := h
      exact ReadsAll.map (loop_of_merges (hS idx m hm) (rd := fromReader C k)
        (fun m' body v' hb hd => ih m' body v' hd k (by omega)) hk h) RVal.struct
    · rw [fromReader_unit k hm hu]
      rw [hu] at h
      simp only [if_true] at h
      subst h
      intro pre suf hl
      simp only [read_to_end, SM.bind_run, SM.get_run, SM.set_run, SM.pure_run]

end QP.Gen
