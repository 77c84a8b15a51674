import Verif.Proofs.SM
import Verif.Spec.Wire
/-! Varint reader: full characterisation. -/

set_option linter.unusedSimpArgs false

namespace QP
open BytesReader Spec

/-- Result of scanning at most `n` bytes for the end of a varint. -/
inductive Scan where
  | done (groups : Bytes)
  | tooLong (k : Nat)
  | short (k : Nat)

/-- Scan at most `n` bytes. -/
def scan : Nat → Bytes → Scan
  | 0, _ => .tooLong 0
  | _ + 1, [] => .short 0
  | n + 1, b :: l =>
    if lastByte b then .done [b]
    else match scan n l with
      | .done g => .done (b :: g)
      | .tooLong k => .tooLong (k + 1)
      | .short k => .short (k + 1)

theorem isLast_iff (b : Byte) : isLast b ↔ lastByte b = true := by
  simp only [isLast, lastByte, decide_eq_true_eq]
  revert b; decide

theorem and7f (b : Byte) : (b &&& 0x7f#8).toNat = b.toNat % 128 := by
  revert b; decide

theorem and0f (b : Byte) : (b &&& 0xf#8).toNat = b.toNat % 16 := by
  revert b; decide

theorem toNat_or_shift {w : Nat} (r x : BitVec w) (k n : Nat) (hr : r.toNat < 2 ^ k)
    (hx : x.toNat * 2 ^ k < 2 ^ n) (hn : n ≤ w) :
    (r ||| (x <<< k)).toNat = r.toNat + x.toNat * 2 ^ k := by
  have h1 : x.toNat * 2 ^ k < 2 ^ w := Nat.lt_of_lt_of_le hx (Nat.pow_le_pow_right (by omega) hn)
  rw [BitVec.toNat_or, BitVec.toNat_shiftLeft, Nat.shiftLeft_eq, Nat.mod_eq_of_lt h1, Nat.or_comm,
    ← Nat.shiftLeft_eq, Nat.or_comm, Nat.or_comm, ← Nat.shiftLeft_add_eq_or_of_lt hr, Nat.shiftLeft_eq]
  omega

/-- Shifted values above the width are dropped. -/
theorem toNat_or_shift_mod (r x : BitVec 64) (k : Nat) (hk : k ≤ 64) (hr : r.toNat < 2 ^ k) :
    (r ||| (x <<< k)).toNat = (r.toNat + x.toNat * 2 ^ k) % 2 ^ 64 := by
  have e : x.toNat * 2 ^ k % 2 ^ 64 = (x.toNat % 2 ^ (64 - k)) * 2 ^ k := by
    rw [← Nat.mul_mod_mul_right, ← Nat.pow_add]
    congr 2; omega
  rw [BitVec.toNat_or, BitVec.toNat_shiftLeft, Nat.shiftLeft_eq, e, Nat.or_comm,
    ← Nat.shiftLeft_eq, ← Nat.shiftLeft_add_eq_or_of_lt hr, Nat.shiftLeft_eq, ← e]
  have hlt : x.toNat * 2 ^ k % 2 ^ 64 + r.toNat < 2 ^ 64 := by
    rw [e]
    have h2 : x.toNat % 2 ^ (64 - k) + 1 ≤ 2 ^ (64 - k) := Nat.mod_lt _ (Nat.two_pow_pos _)
    have h3 := Nat.mul_le_mul_right (2 ^ k) h2
    rw [← Nat.pow_add] at h3
    have : 64 - k + k = 64 := by omega
    rw [this] at h3
    rw [Nat.add_mul] at h3
    omega
  rw [Nat.add_mod, Nat.add_comm]
  omega

theorem toNat_group32 (b : Byte) (k : Nat) (hk : k ≤ 25) :
    (group32 b k).toNat = b.toNat % 128 * 2 ^ k := by
  have hb : b.toNat % 128 * 2 ^ k < 2 ^ 32 := by
    have : b.toNat % 128 < 2 ^ 7 := Nat.mod_lt _ (by omega)
    calc _ < 2 ^ 7 * 2 ^ k := Nat.mul_lt_mul_of_pos_right this (Nat.two_pow_pos _)
      _ = 2 ^ (7 + k) := by rw [Nat.pow_add]
      _ ≤ 2 ^ 32 := Nat.pow_le_pow_right (by omega) (by omega)
  simp only [group32, BitVec.toNat_shiftLeft, BitVec.toNat_setWidth, and7f, Nat.shiftLeft_eq]
  rw [Nat.mod_eq_of_lt (a := b.toNat % 128) (by omega), Nat.mod_eq_of_lt hb]

theorem toNat_first (b : Byte) : ((b &&& 0x7f#8).setWidth 32).toNat = b.toNat % 128 := by
  have : b.toNat % 128 < 128 := Nat.mod_lt _ (by omega)
  simp only [BitVec.toNat_setWidth, and7f]; omega

theorem or_group32 (r : BitVec 32) (b : Byte) (k : Nat) (hr : r.toNat < 2 ^ k) (hk : k ≤ 25) :
    (r ||| group32 b k).toNat = r.toNat + b.toNat % 128 * 2 ^ k := by
  have hb : b.toNat % 128 * 2 ^ k < 2 ^ 32 := by
    rw [← toNat_group32 b k hk]; exact (group32 b k).isLt
  have h7 : ((b &&& 0x7f#8).setWidth 32).toNat = b.toNat % 128 := toNat_first b
  unfold group32
  rw [toNat_or_shift r _ k 32 hr (by rw [h7]; exact hb) (Nat.le_refl _), h7]

theorem r2eq (b0 b1 b2 : Byte) :
    (((b0 &&& 0x7f#8).setWidth 32 ||| group32 b1 7) ||| group32 b2 14).toNat
      = b0.toNat % 128 + b1.toNat % 128 * 128 + b2.toNat % 128 * 16384 := by
  have := toNat_first b0
  have h1 := or_group32 ((b0 &&& 0x7f#8).setWidth 32) b1 7 (by omega) (by omega)
  have h2 := or_group32 (b := b2) (k := 14) (r := (b0 &&& 0x7f#8).setWidth 32 ||| group32 b1 7) (by omega) (by omega)
  omega

theorem r1eq (b0 b1 : Byte) :
    ((b0 &&& 0x7f#8).setWidth 32 ||| group32 b1 7).toNat = b0.toNat % 128 + b1.toNat % 128 * 128 := by
  have := toNat_first b0
  have h1 := or_group32 ((b0 &&& 0x7f#8).setWidth 32) b1 7 (by omega) (by omega)
  omega

theorem r3eq (b0 b1 b2 b3 : Byte) :
    ((((b0 &&& 0x7f#8).setWidth 32 ||| group32 b1 7) ||| group32 b2 14) ||| group32 b3 21).toNat
      = b0.toNat % 128 + b1.toNat % 128 * 128 + b2.toNat % 128 * 16384 + b3.toNat % 128 * 2097152 := by
  have := r2eq b0 b1 b2
  have h2 := or_group32 (b := b3) (k := 21)
    (r := ((b0 &&& 0x7f#8).setWidth 32 ||| group32 b1 7) ||| group32 b2 14) (by omega) (by omega)
  omega

theorem join01_eq (r0 r1 : BitVec 32) (h0 : r0.toNat < 2 ^ 28) (h1 : r1.toNat < 2 ^ 28) :
    (join01 r0 r1).toNat = r0.toNat + r1.toNat * 2 ^ 28 := by
  unfold join01
  have e0 : (r0.setWidth 64).toNat = r0.toNat := by simp only [BitVec.toNat_setWidth]; omega
  have e1 : (r1.setWidth 64).toNat = r1.toNat := by simp only [BitVec.toNat_setWidth]; omega
  rw [toNat_or_shift _ _ 28 64 (by omega) (by omega) (by omega), e0, e1]

theorem join012_eq (r0 r1 r2 : BitVec 32) (h0 : r0.toNat < 2 ^ 28) (h1 : r1.toNat < 2 ^ 28) :
    (join012 r0 r1 r2).toNat = (r0.toNat + r1.toNat * 2 ^ 28 + r2.toNat * 2 ^ 56) % 2 ^ 64 := by
  unfold join012
  have e := join01_eq r0 r1 h0 h1
  have e2 : (r2.setWidth 64).toNat = r2.toNat := by simp only [BitVec.toNat_setWidth]; omega
  rw [toNat_or_shift_mod _ _ 56 (by omega) (by omega), e, e2]

theorem last10 (b8 b9 : Byte) (h : lastByte b9 = true) :
    ((b8 &&& 0x7f#8).setWidth 32 ||| (b9.setWidth 32 <<< 7)).toNat
      = b8.toNat % 128 + b9.toNat % 128 * 128 := by
  have := toNat_first b8
  simp only [lastByte, decide_eq_true_eq] at h
  have e : (b9.setWidth 32).toNat = b9.toNat := by simp only [BitVec.toNat_setWidth]; omega
  rw [toNat_or_shift _ _ 7 32 (by omega) (by omega) (by omega), this, e, Nat.mod_eq_of_lt h]

/-- Interpretation of a scan as the outcome of the 64 bit varint reader. -/
def scanOut64 (r : BytesReader) : Scan → Out (BitVec 64) × BytesReader
  | .done g => (.ok (BitVec.ofNat 64 (varintVal g)), ⟨r.start + g.length, r.fin⟩)
  | .tooLong k => (.err .Varint, ⟨r.start + k, r.fin⟩)
  | .short k => (.err .UnexpectedEndOfBuffer, ⟨r.start + k, r.fin⟩)

theorem read_varint64_scan (bytes : Bytes) (r : BytesReader) :
    read_varint64 bytes r = scanOut64 r (scan 10 (bytes.drop r.start)) := by
  unfold read_varint64
  generalize hl : bytes.drop r.start = l
  obtain ⟨s, e⟩ := r
  simp only at hl
  rcases l with _ | ⟨b0, l⟩
  · rw [SM.bind_run, read_u8_nil hl]
    rfl
  rw [SM.bind_run, read_u8_cons hl]
  replace hl := drop_succ hl
  simp only [scan, isLast_iff]
  by_cases h0 : lastByte b0 = true
  · simp only [if_pos h0, SM.pure_run, scanOut64, varintVal, Nat.mul_zero, Nat.add_zero,
      List.length_cons, List.length_nil, Prod.mk.injEq, Out.ok.injEq,
      and_true]
    apply BitVec.eq_of_toNat_eq
    simp only [lastByte, decide_eq_true_eq] at h0
    simp only [BitVec.toNat_setWidth, BitVec.toNat_ofNat]; omega
  simp only [if_neg h0]
  rcases l with _ | ⟨b1, l⟩
  · rw [SM.bind_run, read_u8_nil hl]
    rfl
  rw [SM.bind_run, read_u8_cons hl]
  replace hl := drop_succ hl
  simp only [scan, isLast_iff]
  by_cases h1 : lastByte b1 = true
  · simp only [if_pos h1, SM.pure_run, scanOut64, varintVal, Nat.mul_zero, Nat.add_zero,
      List.length_cons, List.length_nil, Prod.mk.injEq, Out.ok.injEq,
      and_true]
    apply BitVec.eq_of_toNat_eq
    simp only [BitVec.toNat_setWidth, BitVec.toNat_ofNat, r1eq]; omega
  simp only [if_neg h1]
  rcases l with _ | ⟨b2, l⟩
  · rw [SM.bind_run, read_u8_nil hl]
    rfl
  rw [SM.bind_run, read_u8_cons hl]
  replace hl := drop_succ hl
  simp only [scan, isLast_iff]
  by_cases h2 : lastByte b2 = true
  · simp only [if_pos h2, SM.pure_run, scanOut64, varintVal, Nat.mul_zero, Nat.add_zero,
      List.length_cons, List.length_nil, Prod.mk.injEq, Out.ok.injEq,
      and_true]
    apply BitVec.eq_of_toNat_eq
    simp only [BitVec.toNat_setWidth, BitVec.toNat_ofNat, r2eq]; omega
  simp only [if_neg h2]
  rcases l with _ | ⟨b3, l⟩
  · rw [SM.bind_run, read_u8_nil hl]
    rfl
  rw [SM.bind_run, read_u8_cons hl]
  replace hl := drop_succ hl
  simp only [scan, isLast_iff]
  by_cases h3 : lastByte b3 = true
  · simp only [if_pos h3, SM.pure_run, scanOut64, varintVal, Nat.mul_zero, Nat.add_zero,
      List.length_cons, List.length_nil, Prod.mk.injEq, Out.ok.injEq,
      and_true]
    apply BitVec.eq_of_toNat_eq
    simp only [BitVec.toNat_setWidth, BitVec.toNat_ofNat, r3eq]; omega
  simp only [if_neg h3]
  rcases l with _ | ⟨b4, l⟩
  · rw [SM.bind_run, read_u8_nil hl]
    rfl
  rw [SM.bind_run, read_u8_cons hl]
  replace hl := drop_succ hl
  simp only [scan, isLast_iff]
  by_cases h4 : lastByte b4 = true
  · simp only [if_pos h4, SM.pure_run, scanOut64, varintVal, Nat.mul_zero, Nat.add_zero,
      List.length_cons, List.length_nil, Prod.mk.injEq, Out.ok.injEq,
      and_true]
    apply BitVec.eq_of_toNat_eq
    have e0 := r3eq b0 b1 b2 b3
    have e1 := toNat_first b4
    rw [join01_eq _ _ (by omega) (by omega), e0, e1, BitVec.toNat_ofNat]
    omega
  simp only [if_neg h4]
  rcases l with _ | ⟨b5, l⟩
  · rw [SM.bind_run, read_u8_nil hl]
    rfl
  rw [SM.bind_run, read_u8_cons hl]
  replace hl := drop_succ hl
  simp only [scan, isLast_iff]
  by_cases h5 : lastByte b5 = true
  · simp only [if_pos h5, SM.pure_run, scanOut64, varintVal, Nat.mul_zero, Nat.add_zero,
      List.length_cons, List.length_nil, Prod.mk.injEq, Out.ok.injEq,
      and_true]
    apply BitVec.eq_of_toNat_eq
    have e0 := r3eq b0 b1 b2 b3
    have e1 := r1eq b4 b5
    rw [join01_eq _ _ (by omega) (by omega), e0, e1, BitVec.toNat_ofNat]
    omega
  simp only [if_neg h5]
  rcases l with _ | ⟨b6, l⟩
  · rw [SM.bind_run, read_u8_nil hl]
    rfl
  rw [SM.bind_run, read_u8_cons hl]
  replace hl := drop_succ hl
  simp only [scan, isLast_iff]
  by_cases h6 : lastByte b6 = true
  · simp only [if_pos h6, SM.pure_run, scanOut64, varintVal, Nat.mul_zero, Nat.add_zero,
      List.length_cons, List.length_nil, Prod.mk.injEq, Out.ok.injEq,
      and_true]
    apply BitVec.eq_of_toNat_eq
    have e0 := r3eq b0 b1 b2 b3
    have e1 := r2eq b4 b5 b6
    rw [join01_eq _ _ (by omega) (by omega), e0, e1, BitVec.toNat_ofNat]
    omega
  simp only [if_neg h6]
  rcases l with _ | ⟨b7, l⟩
  · rw [SM.bind_run, read_u8_nil hl]
    rfl
  rw [SM.bind_run, read_u8_cons hl]
  replace hl := drop_succ hl
  simp only [scan, isLast_iff]
  by_cases h7 : lastByte b7 = true
  · simp only [if_pos h7, SM.pure_run, scanOut64, varintVal, Nat.mul_zero, Nat.add_zero,
      List.length_cons, List.length_nil, Prod.mk.injEq, Out.ok.injEq,
      and_true]
    apply BitVec.eq_of_toNat_eq
    have e0 := r3eq b0 b1 b2 b3
    have e1 := r3eq b4 b5 b6 b7
    rw [join01_eq _ _ (by omega) (by omega), e0, e1, BitVec.toNat_ofNat]
    omega
  simp only [if_neg h7]
  rcases l with _ | ⟨b8, l⟩
  · rw [SM.bind_run, read_u8_nil hl]
    rfl
  rw [SM.bind_run, read_u8_cons hl]
  replace hl := drop_succ hl
  simp only [scan, isLast_iff]
  by_cases h8 : lastByte b8 = true
  · simp only [if_pos h8, SM.pure_run, scanOut64, varintVal, Nat.mul_zero, Nat.add_zero,
      List.length_cons, List.length_nil, Prod.mk.injEq, Out.ok.injEq,
      and_true]
    apply BitVec.eq_of_toNat_eq
    have e0 := r3eq b0 b1 b2 b3
    have e1 := r3eq b4 b5 b6 b7
    have e2 := toNat_first b8
    rw [join012_eq _ _ _ (by omega) (by omega), e0, e1, e2, BitVec.toNat_ofNat]
    omega
  simp only [if_neg h8]
  rcases l with _ | ⟨b9, l⟩
  · rw [SM.bind_run, read_u8_nil hl]
    rfl
  rw [SM.bind_run, read_u8_cons hl]
  replace hl := drop_succ hl
  simp only [scan, isLast_iff]
  by_cases h9 : lastByte b9 = true
  · simp only [if_pos h9, SM.pure_run, scanOut64, varintVal, Nat.mul_zero, Nat.add_zero,
      List.length_cons, List.length_nil, Prod.mk.injEq, Out.ok.injEq,
      and_true]
    apply BitVec.eq_of_toNat_eq
    have e0 := r3eq b0 b1 b2 b3
    have e1 := r3eq b4 b5 b6 b7
    have e2 := last10 b8 b9 h9
    rw [join012_eq _ _ _ (by omega) (by omega), e0, e1, e2, BitVec.toNat_ofNat]
    omega
  simp only [if_neg h9]
  rfl

/-- Interpretation of a scan as the outcome of the 32 bit varint reader. -/
def scanOut32 (r : BytesReader) : Scan → Out (BitVec 32) × BytesReader
  | .done g => (.ok (BitVec.ofNat 32 (varintVal g)), ⟨r.start + g.length, r.fin⟩)
  | .tooLong k => (.err .Varint, ⟨r.start + k, r.fin⟩)
  | .short k => (.err .UnexpectedEndOfBuffer, ⟨r.start + k, r.fin⟩)

theorem r4eq (b0 b1 b2 b3 b4 : Byte) :
    ((((b0 &&& 0x7f#8).setWidth 32 ||| group32 b1 7) ||| group32 b2 14) ||| group32 b3 21
      ||| ((b4 &&& 0xf#8).setWidth 32 <<< 28)).toNat
      = b0.toNat % 128 + b1.toNat % 128 * 128 + b2.toNat % 128 * 16384 + b3.toNat % 128 * 2097152
        + b4.toNat % 16 * 2 ^ 28 := by
  have h3 := r3eq b0 b1 b2 b3
  have h4 : ((b4 &&& 0xf#8).setWidth 32).toNat = b4.toNat % 16 := by
    simp only [BitVec.toNat_setWidth, and0f]; omega
  rw [toNat_or_shift _ _ 28 32 (by omega) (by omega) (by omega), h3, h4]

theorem read_varint32_scan (bytes : Bytes) (r : BytesReader) :
    read_varint32 bytes r = scanOut32 r (scan 10 (bytes.drop r.start)) := by
  unfold read_varint32
  generalize hl : bytes.drop r.start = l
  obtain ⟨s, e⟩ := r
  simp only at hl
  rcases l with _ | ⟨b0, l⟩
  · rw [SM.bind_run, read_u8_nil hl]
    rfl
  rw [SM.bind_run, read_u8_cons hl]
  replace hl := drop_succ hl
  simp only [scan, isLast_iff]
  by_cases h0 : lastByte b0 = true
  · simp only [if_pos h0, SM.pure_run, scanOut32, varintVal, Nat.mul_zero, Nat.add_zero,
      List.length_cons, List.length_nil, Prod.mk.injEq, Out.ok.injEq,
      and_true]
    apply BitVec.eq_of_toNat_eq
    simp only [lastByte, decide_eq_true_eq] at h0
    simp only [BitVec.toNat_setWidth, BitVec.toNat_ofNat]; omega
  simp only [if_neg h0]
  rcases l with _ | ⟨b1, l⟩
  · rw [SM.bind_run, read_u8_nil hl]
    rfl
  rw [SM.bind_run, read_u8_cons hl]
  replace hl := drop_succ hl
  simp only [scan, isLast_iff]
  by_cases h1 : lastByte b1 = true
  · simp only [if_pos h1, SM.pure_run, scanOut32, varintVal, Nat.mul_zero, Nat.add_zero,
      List.length_cons, List.length_nil, Prod.mk.injEq, Out.ok.injEq,
      and_true]
    apply BitVec.eq_of_toNat_eq
    simp only [BitVec.toNat_setWidth, BitVec.toNat_ofNat, r1eq]; omega
  simp only [if_neg h1]
  rcases l with _ | ⟨b2, l⟩
  · rw [SM.bind_run, read_u8_nil hl]
    rfl
  rw [SM.bind_run, read_u8_cons hl]
  replace hl := drop_succ hl
  simp only [scan, isLast_iff]
  by_cases h2 : lastByte b2 = true
  · simp only [if_pos h2, SM.pure_run, scanOut32, varintVal, Nat.mul_zero, Nat.add_zero,
      List.length_cons, List.length_nil, Prod.mk.injEq, Out.ok.injEq,
      and_true]
    apply BitVec.eq_of_toNat_eq
    simp only [BitVec.toNat_setWidth, BitVec.toNat_ofNat, r2eq]; omega
  simp only [if_neg h2]
  rcases l with _ | ⟨b3, l⟩
  · rw [SM.bind_run, read_u8_nil hl]
    rfl
  rw [SM.bind_run, read_u8_cons hl]
  replace hl := drop_succ hl
  simp only [scan, isLast_iff]
  by_cases h3 : lastByte b3 = true
  · simp only [if_pos h3, SM.pure_run, scanOut32, varintVal, Nat.mul_zero, Nat.add_zero,
      List.length_cons, List.length_nil, Prod.mk.injEq, Out.ok.injEq,
      and_true]
    apply BitVec.eq_of_toNat_eq
    simp only [BitVec.toNat_setWidth, BitVec.toNat_ofNat, r3eq]; omega
  simp only [if_neg h3]
  rcases l with _ | ⟨b4, l⟩
  · rw [SM.bind_run, read_u8_nil hl]
    rfl
  rw [SM.bind_run, read_u8_cons hl]
  replace hl := drop_succ hl
  simp only [scan, isLast_iff]
  by_cases h4 : lastByte b4 = true
  · simp only [if_pos h4, SM.pure_run, scanOut32, varintVal, Nat.mul_zero, Nat.add_zero,
      List.length_cons, List.length_nil, Prod.mk.injEq, Out.ok.injEq,
      and_true]
    apply BitVec.eq_of_toNat_eq
    rw [r4eq, BitVec.toNat_ofNat]
    omega
  simp only [if_neg h4]
  simp only [discardExtra]
  rcases l with _ | ⟨b5, l⟩
  · rw [SM.bind_run, read_u8_nil hl]
    rfl
  rw [SM.bind_run, read_u8_cons hl]
  replace hl := drop_succ hl
  simp only [scan, isLast_iff]
  by_cases h5 : lastByte b5 = true
  · simp only [if_pos h5, SM.pure_run, scanOut32, varintVal, Nat.mul_zero, Nat.add_zero,
      List.length_cons, List.length_nil, Prod.mk.injEq, Out.ok.injEq,
      and_true]
    apply BitVec.eq_of_toNat_eq
    rw [r4eq, BitVec.toNat_ofNat]
    omega
  simp only [if_neg h5]
  rcases l with _ | ⟨b6, l⟩
  · rw [SM.bind_run, read_u8_nil hl]
    rfl
  rw [SM.bind_run, read_u8_cons hl]
  replace hl := drop_succ hl
  simp only [scan, isLast_iff]
  by_cases h6 : lastByte b6 = true
  · simp only [if_pos h6, SM.pure_run, scanOut32, varintVal, Nat.mul_zero, Nat.add_zero,
      List.length_cons, List.length_nil, Prod.mk.injEq, Out.ok.injEq,
      and_true]
    apply BitVec.eq_of_toNat_eq
    rw [r4eq, BitVec.toNat_ofNat]
    omega
  simp only [if_neg h6]
  rcases l with _ | ⟨b7, l⟩
  · rw [SM.bind_run, read_u8_nil hl]
    rfl
  rw [SM.bind_run, read_u8_cons hl]
  replace hl := drop_succ hl
  simp only [scan, isLast_iff]
  by_cases h7 : lastByte b7 = true
  · simp only [if_pos h7, SM.pure_run, scanOut32, varintVal, Nat.mul_zero, Nat.add_zero,
      List.length_cons, List.length_nil, Prod.mk.injEq, Out.ok.injEq,
      and_true]
    apply BitVec.eq_of_toNat_eq
    rw [r4eq, BitVec.toNat_ofNat]
    omega
  simp only [if_neg h7]
  rcases l with _ | ⟨b8, l⟩
  · rw [SM.bind_run, read_u8_nil hl]
    rfl
  rw [SM.bind_run, read_u8_cons hl]
  replace hl := drop_succ hl
  simp only [scan, isLast_iff]
  by_cases h8 : lastByte b8 = true
  · simp only [if_pos h8, SM.pure_run, scanOut32, varintVal, Nat.mul_zero, Nat.add_zero,
      List.length_cons, List.length_nil, Prod.mk.injEq, Out.ok.injEq,
      and_true]
    apply BitVec.eq_of_toNat_eq
    rw [r4eq, BitVec.toNat_ofNat]
    omega
  simp only [if_neg h8]
  rcases l with _ | ⟨b9, l⟩
  · rw [SM.bind_run, read_u8_nil hl]
    rfl
  rw [SM.bind_run, read_u8_cons hl]
  replace hl := drop_succ hl
  simp only [scan, isLast_iff]
  by_cases h9 : lastByte b9 = true
  · simp only [if_pos h9, SM.pure_run, scanOut32, varintVal, Nat.mul_zero, Nat.add_zero,
      List.length_cons, List.length_nil, Prod.mk.injEq, Out.ok.injEq,
      and_true]
    apply BitVec.eq_of_toNat_eq
    rw [r4eq, BitVec.toNat_ofNat]
    omega
  simp only [if_neg h9]
  rfl

end QP
