import Verif.Proofs.Writer
import Verif.Proofs.Utf8
/-! Arithmetic behind the scalar codecs. -/

namespace QP
open Spec BytesReader

theorem signExtend_toNat (v : BitVec 32) : (v.signExtend 64).toNat = twos64 v.toInt := by
  have := v.isLt
  rw [BitVec.toNat_signExtend, twos64, BitVec.toInt_eq_toNat_cond]
  rcases hm : v.msb with _ | _
  · rw [BitVec.msb_eq_false_iff_two_mul_lt] at hm
    simp only [BitVec.toNat_setWidth, if_pos hm, Bool.false_eq_true, if_false]
    omega
  · rw [BitVec.msb_eq_true_iff_two_mul_ge] at hm
    simp only [BitVec.toNat_setWidth, if_true]
    rw [if_neg (by omega)]
    omega

theorem twos64_toInt (v : BitVec 64) : twos64 v.toInt = v.toNat := by
  have := v.isLt
  rw [twos64, BitVec.toInt_eq_toNat_cond]
  split <;> omega

theorem setWidth_toNat (v : BitVec 32) : (v.setWidth 64).toNat = v.toNat := by
  have := v.isLt
  simp only [BitVec.toNat_setWidth]; omega

theorem twos64_mod32 (v : BitVec 32) : BitVec.ofNat 32 (twos64 v.toInt) = v := by
  have := v.isLt
  apply BitVec.eq_of_toNat_eq
  rw [twos64, BitVec.toInt_eq_toNat_cond, BitVec.toNat_ofNat]
  split <;> omega

theorem sshiftRight_msb {w : Nat} (v : BitVec (w + 1)) :
    v.sshiftRight w = if v.msb then BitVec.allOnes (w + 1) else 0#(w + 1) := by
  apply BitVec.eq_of_getLsbD_eq
  intro i hi
  rw [BitVec.getLsbD_sshiftRight]
  rcases Nat.eq_zero_or_pos i with h0 | h0
  · subst h0
    simp only [Nat.add_zero]
    have : v.getLsbD w = v.msb := by simp [BitVec.msb_eq_getLsbD_last]
    cases hm : v.msb <;> simp_all
  · have : ¬ (w + i < w + 1) := by omega
    cases hm : v.msb <;> simp [this, hi]

theorem zigzagExpr32_toNat (v : BitVec 32) : (zigzagExpr32 v).toNat = zigzag v.toInt := by
  have hlt := v.isLt
  unfold zigzagExpr32 zigzag
  rw [sshiftRight_msb (w := 31), BitVec.toInt_eq_toNat_cond]
  cases hm : v.msb
  · rw [BitVec.msb_eq_false_iff_two_mul_lt] at hm
    simp only [if_pos hm, Bool.false_eq_true, if_false, BitVec.xor_zero]
    rw [BitVec.toNat_shiftLeft, Nat.shiftLeft_eq]
    rw [if_pos (by omega)]
    omega
  · rw [BitVec.msb_eq_true_iff_two_mul_ge] at hm
    simp only [if_true]
    rw [if_neg (show ¬ (2 * v.toNat < 2 ^ 32) by omega), BitVec.xor_allOnes, BitVec.toNat_not,
      BitVec.toNat_shiftLeft, Nat.shiftLeft_eq, if_neg (by omega)]
    omega

theorem zigzagExpr64_toNat (v : BitVec 64) : (zigzagExpr64 v).toNat = zigzag v.toInt := by
  have hlt := v.isLt
  unfold zigzagExpr64 zigzag
  rw [sshiftRight_msb (w := 63), BitVec.toInt_eq_toNat_cond]
  cases hm : v.msb
  · rw [BitVec.msb_eq_false_iff_two_mul_lt] at hm
    simp only [if_pos hm, Bool.false_eq_true, if_false, BitVec.xor_zero]
    rw [BitVec.toNat_shiftLeft, Nat.shiftLeft_eq]
    rw [if_pos (by omega)]
    omega
  · rw [BitVec.msb_eq_true_iff_two_mul_ge] at hm
    simp only [if_true]
    rw [if_neg (show ¬ (2 * v.toNat < 2 ^ 64) by omega), BitVec.xor_allOnes, BitVec.toNat_not,
      BitVec.toNat_shiftLeft, Nat.shiftLeft_eq, if_neg (by omega)]
    omega

theorem unzigzag (w : Nat) (n : BitVec w) (h1 : 1 < w) :
    (n >>> 1) ^^^ (-(n &&& 1#w)) = if n.toNat % 2 = 0 then n >>> 1 else ~~~(n >>> 1) := by
  have ha : (n &&& 1#w).toNat = n.toNat % 2 := by
    rw [BitVec.toNat_and, BitVec.toNat_ofNat, Nat.mod_eq_of_lt (Nat.one_lt_two_pow (by omega)),
      Nat.and_one_is_mod]
  split
  · rename_i h
    have : n &&& 1#w = 0#w := BitVec.eq_of_toNat_eq (by rw [ha, h]; simp)
    rw [this]; simp
  · rename_i h
    have : n &&& 1#w = 1#w := BitVec.eq_of_toNat_eq (by
      rw [ha, BitVec.toNat_ofNat, Nat.mod_eq_of_lt (Nat.one_lt_two_pow (by omega))]; omega)
    rw [this, BitVec.neg_one_eq_allOnes, BitVec.xor_allOnes]

theorem unzigzag32 (v : BitVec 32) :
    ((zigzagExpr32 v) >>> 1) ^^^ (-((zigzagExpr32 v) &&& 1#32)) = v := by
  have hz := zigzagExpr32_toNat v
  have hlt := v.isLt
  rw [unzigzag 32 _ (by omega)]
  apply BitVec.eq_of_toNat_eq
  rw [zigzag, BitVec.toInt_eq_toNat_cond] at hz
  split
  · rw [BitVec.toNat_ushiftRight, Nat.shiftRight_eq_div_pow]
    by_cases h : 2 * v.toNat < 2 ^ 32
    · rw [if_pos h, if_pos (by omega)] at hz; omega
    · rw [if_neg h, if_neg (by omega)] at hz; omega
  · rw [BitVec.toNat_not, BitVec.toNat_ushiftRight, Nat.shiftRight_eq_div_pow]
    by_cases h : 2 * v.toNat < 2 ^ 32
    · rw [if_pos h, if_pos (by omega)] at hz; omega
    · rw [if_neg h, if_neg (by omega)] at hz; omega

theorem unzigzag64 (v : BitVec 64) :
    ((zigzagExpr64 v) >>> 1) ^^^ (-((zigzagExpr64 v) &&& 1#64)) = v := by
  have hz := zigzagExpr64_toNat v
  have hlt := v.isLt
  rw [unzigzag 64 _ (by omega)]
  apply BitVec.eq_of_toNat_eq
  rw [zigzag, BitVec.toInt_eq_toNat_cond] at hz
  split
  · rw [BitVec.toNat_ushiftRight, Nat.shiftRight_eq_div_pow]
    by_cases h : 2 * v.toNat < 2 ^ 64
    · rw [if_pos h, if_pos (by omega)] at hz; omega
    · rw [if_neg h, if_neg (by omega)] at hz; omega
  · rw [BitVec.toNat_not, BitVec.toNat_ushiftRight, Nat.shiftRight_eq_div_pow]
    by_cases h : 2 * v.toNat < 2 ^ 64
    · rw [if_pos h, if_pos (by omega)] at hz; omega
    · rw [if_neg h, if_neg (by omega)] at hz; omega

theorem or_shift_toNat {w : Nat} {r x : BitVec w} {k a b : Nat} (hr : r.toNat = a)
    (hx : x.toNat = b) (ha : a < 2 ^ k) (hb : b < 2 ^ 8) (hk : k + 8 ≤ w) :
    (r ||| (x <<< k)).toNat = a + b * 2 ^ k := by
  rw [toNat_or_shift r x k w (by omega) _ (Nat.le_refl _), hr, hx]
  rw [hx]
  calc b * 2 ^ k < 2 ^ 8 * 2 ^ k := Nat.mul_lt_mul_of_pos_right hb (Nat.two_pow_pos _)
    _ = 2 ^ (8 + k) := by rw [Nat.pow_add]
    _ ≤ 2 ^ w := Nat.pow_le_pow_right (by omega) (by omega)

theorem byte_setWidth {w : Nat} (b : Byte) (h : 8 ≤ w) : (b.setWidth w).toNat = b.toNat := by
  rw [BitVec.toNat_setWidth, Nat.mod_eq_of_lt]
  exact Nat.lt_of_lt_of_le b.isLt (Nat.pow_le_pow_right (by omega) h)

theorem leRead32_val (b0 b1 b2 b3 : Byte) :
    (leRead32 [b0, b1, b2, b3]).toNat = leVal [b0, b1, b2, b3] := by
  have h0 := b0.isLt; have h1 := b1.isLt; have h2 := b2.isLt; have h3 := b3.isLt
  simp only [leRead32, List.getD_cons_zero, List.getD_cons_succ, leVal]
  have e1 := or_shift_toNat (k := 8) (byte_setWidth (w := 32) b0 (by omega))
    (byte_setWidth (w := 32) b1 (by omega)) h0 h1 (by omega)
  have e2 := or_shift_toNat (k := 16) e1 (byte_setWidth (w := 32) b2 (by omega)) (by omega) h2 (by omega)
  have e3 := or_shift_toNat (k := 24) e2 (byte_setWidth (w := 32) b3 (by omega)) (by omega) h3 (by omega)
  rw [e3]; omega

theorem leRead64_val (b0 b1 b2 b3 b4 b5 b6 b7 : Byte) :
    (leRead64 [b0, b1, b2, b3, b4, b5, b6, b7]).toNat = leVal [b0, b1, b2, b3, b4, b5, b6, b7] := by
  have h0 := b0.isLt; have h1 := b1.isLt; have h2 := b2.isLt; have h3 := b3.isLt
  have h4 := b4.isLt; have h5 := b5.isLt; have h6 := b6.isLt; have h7 := b7.isLt
  simp only [leRead64, List.getD_cons_zero, List.getD_cons_succ, leVal]
  have e1 := or_shift_toNat (k := 8) (byte_setWidth (w := 64) b0 (by omega))
    (byte_setWidth (w := 64) b1 (by omega)) h0 h1 (by omega)
  have e2 := or_shift_toNat (k := 16) e1 (byte_setWidth (w := 64) b2 (by omega)) (by omega) h2 (by omega)
  have e3 := or_shift_toNat (k := 24) e2 (byte_setWidth (w := 64) b3 (by omega)) (by omega) h3 (by omega)
  have e4 := or_shift_toNat (k := 32) e3 (byte_setWidth (w := 64) b4 (by omega)) (by omega) h4 (by omega)
  have e5 := or_shift_toNat (k := 40) e4 (byte_setWidth (w := 64) b5 (by omega)) (by omega) h5 (by omega)
  have e6 := or_shift_toNat (k := 48) e5 (byte_setWidth (w := 64) b6 (by omega)) (by omega) h6 (by omega)
  have e7 := or_shift_toNat (k := 56) e6 (byte_setWidth (w := 64) b7 (by omega)) (by omega) h7 (by omega)
  rw [e7]; omega

theorem leVal_lt (bs : Bytes) : leVal bs < 256 ^ bs.length := by
  induction bs with
  | nil => simp [leVal]
  | cons b bs ih =>
    have := b.isLt
    simp only [leVal, List.length_cons, Nat.pow_succ]; omega

theorem leVal_le (k n : Nat) : leVal (le k n) = n % 256 ^ k := by
  induction k generalizing n with
  | zero => simp [le, leVal, Nat.mod_one]
  | succ k ih =>
    simp only [le, leVal, ih, BitVec.toNat_ofNat, Nat.pow_succ]
    have : n % (256 ^ k * 256) = n % 256 + 256 * (n / 256 % 256 ^ k) := by
      rw [Nat.mul_comm, Nat.mod_mul]
    omega

/-- Reading any four bytes gives their little-endian value. -/
theorem leRead32_eq {bs : Bytes} (h : bs.length = 4) : leRead32 bs = BitVec.ofNat 32 (leVal bs) := by
  match bs, h with
  | [b0, b1, b2, b3], _ =>
    apply BitVec.eq_of_toNat_eq
    have := leVal_lt [b0, b1, b2, b3]
    rw [leRead32_val, BitVec.toNat_ofNat, Nat.mod_eq_of_lt]
    simpa using this

theorem leRead64_eq {bs : Bytes} (h : bs.length = 8) : leRead64 bs = BitVec.ofNat 64 (leVal bs) := by
  match bs, h with
  | [b0, b1, b2, b3, b4, b5, b6, b7], _ =>
    apply BitVec.eq_of_toNat_eq
    have := leVal_lt [b0, b1, b2, b3, b4, b5, b6, b7]
    rw [leRead64_val, BitVec.toNat_ofNat, Nat.mod_eq_of_lt]
    simpa using this

theorem leRead32_le (x : BitVec 32) : leRead32 (le 4 x.toNat) = x := by
  rw [leRead32_eq (length_le 4 _), leVal_le]
  apply BitVec.eq_of_toNat_eq
  have := x.isLt
  rw [BitVec.toNat_ofNat]; omega

theorem leRead64_le (x : BitVec 64) : leRead64 (le 8 x.toNat) = x := by
  rw [leRead64_eq (length_le 8 _), leVal_le]
  apply BitVec.eq_of_toNat_eq
  have := x.isLt
  rw [BitVec.toNat_ofNat]; omega

end QP
