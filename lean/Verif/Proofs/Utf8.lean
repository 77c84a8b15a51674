import Verif.Model.Utf8
import Verif.Spec.Utf8
/-! The validator accepts exactly the valid UTF-8 strings. -/

namespace QP
open Spec

theorem toNat_ofNat8 {n : Nat} (h : n < 256) : (BitVec.ofNat 8 n).toNat = n := by
  simp only [BitVec.toNat_ofNat]; omega

theorem ofNat8_toNat (b : Byte) : BitVec.ofNat 8 b.toNat = b := by simp

theorem utf8Ok_char (c : Nat) (hc : scalar c) (rest : Bytes) :
    utf8Ok (utf8Char c ++ rest) = utf8Ok rest := by
  unfold scalar at hc
  unfold utf8Char
  split
  · rw [List.singleton_append, utf8Ok.eq_def]
    simp only
    rw [toNat_ofNat8 (by omega), if_pos (by omega)]
  split
  · simp only [List.cons_append, List.nil_append]
    rw [utf8Ok, toNat_ofNat8 (by omega), if_neg (by omega), if_pos (by simp; omega)]
    simp only [utf8Cont]
    rw [toNat_ofNat8 (by omega)]
    have : (decide (128 ≤ 128 + c % 64) && decide (128 + c % 64 ≤ 191)) = true := by simp; omega
    simp only [this, Bool.true_and]
  split
  · simp only [List.cons_append, List.nil_append]
    rw [utf8Ok, toNat_ofNat8 (by omega), if_neg (by omega), if_neg (by simp; omega),
      if_pos (by simp; omega)]
    simp only [utf8Cont]
    rw [toNat_ofNat8 (by omega), toNat_ofNat8 (by omega)]
    have : (decide (128 ≤ 128 + c % 64) && decide (128 + c % 64 ≤ 191)) = true := by simp; omega
    have h3 : utf8Ok3 (0xE0 + c / 4096) (0x80 + c / 64 % 64) = true := by
      simp [utf8Ok3]; omega
    simp only [this, h3, Bool.true_and]
  · simp only [List.cons_append, List.nil_append]
    rw [utf8Ok, toNat_ofNat8 (by omega), if_neg (by omega), if_neg (by simp; omega),
      if_neg (by simp; omega), if_pos (by simp; omega)]
    simp only [utf8Cont]
    rw [toNat_ofNat8 (by omega), toNat_ofNat8 (by omega), toNat_ofNat8 (by omega)]
    have : (decide (128 ≤ 128 + c % 64) && decide (128 + c % 64 ≤ 191)) = true := by simp; omega
    have h2 : (decide (128 ≤ 128 + c / 64 % 64) && decide (128 + c / 64 % 64 ≤ 191)) = true := by
      simp; omega
    have h3 : utf8Ok4 (0xF0 + c / 262144) (0x80 + c / 4096 % 64) = true := by
      simp [utf8Ok4]; omega
    simp only [this, h3, h2, Bool.true_and]

theorem utf8Ok_of_valid {bs : Bytes} (h : ValidUtf8 bs) : utf8Ok bs = true := by
  obtain ⟨cs, hc, rfl⟩ := h
  induction cs with
  | nil => simp [utf8Ok]
  | cons c cs ih =>
    simp only [List.flatMap_cons]
    rw [utf8Ok_char c (hc c (by simp))]
    exact ih (fun x hx => hc x (by simp [hx]))

theorem ValidUtf8.cons {bs : Bytes} {c : Nat} {pre : Bytes} (h : ValidUtf8 bs) (hc : scalar c)
    (e : pre = utf8Char c) : ValidUtf8 (pre ++ bs) := by
  obtain ⟨cs, h1, rfl⟩ := h
  refine ⟨c :: cs, ?_, by simp [e]⟩
  intro x hx
  rcases List.mem_cons.mp hx with rfl | hx
  · exact hc
  · exact h1 x hx

theorem valid_of_utf8Ok (bs : Bytes) (h : utf8Ok bs = true) : ValidUtf8 bs := by
  generalize hn : bs.length = n
  induction n using Nat.strongRecOn generalizing bs with
  | ind n ih =>
  subst hn
  rcases bs with _ | ⟨b0, rest⟩
  · exact ⟨[], by simp, rfl⟩
  have hb0 := b0.isLt
  rw [utf8Ok.eq_def] at h
  simp only at h
  split at h
  · rename_i h0
    have := ih _ (by simp) rest h rfl
    refine ValidUtf8.cons (c := b0.toNat) (pre := [b0]) this (by unfold scalar; omega) ?_
    rw [utf8Char, if_pos h0, ofNat8_toNat]
  split at h
  · rename_i h0 h1
    split at h
    · rename_i b1 rest
      simp only [Bool.and_eq_true, utf8Cont, decide_eq_true_eq] at h h1
      obtain ⟨h2, h3⟩ := h
      have := ih _ (by simp; omega) rest h3 rfl
      have e1 : (b0.toNat - 0xC0) * 64 + (b1.toNat - 0x80) < 0x800 := by omega
      have e2 : ¬ (b0.toNat - 0xC0) * 64 + (b1.toNat - 0x80) < 0x80 := by omega
      refine ValidUtf8.cons (c := (b0.toNat - 0xC0) * 64 + (b1.toNat - 0x80)) (pre := [b0, b1]) this
        (by unfold scalar; omega) ?_
      rw [utf8Char, if_neg e2, if_pos e1]
      simp only [List.cons.injEq, and_true]
      refine ⟨?_, ?_⟩ <;> apply BitVec.eq_of_toNat_eq <;> rw [toNat_ofNat8 (by omega)] <;> omega
    · simp at h
  split at h
  · rename_i h0 h0' h1
    split at h
    · rename_i b1 b2 rest
      simp only [Bool.and_eq_true, utf8Cont, decide_eq_true_eq] at h h1
      obtain ⟨⟨h2, h2'⟩, h3⟩ := h
      have := ih _ (by simp; omega) rest h3 rfl
      simp only [utf8Ok3, Bool.or_eq_true, Bool.and_eq_true, decide_eq_true_eq, beq_iff_eq] at h2
      have hc : ¬ (b0.toNat - 0xE0) * 4096 + (b1.toNat - 0x80) * 64 + (b2.toNat - 0x80) < 0x800 ∧
         (b0.toNat - 0xE0) * 4096 + (b1.toNat - 0x80) * 64 + (b2.toNat - 0x80) < 0x10000 ∧
         scalar ((b0.toNat - 0xE0) * 4096 + (b1.toNat - 0x80) * 64 + (b2.toNat - 0x80)) := by
        unfold scalar; omega
      generalize hcc : (b0.toNat - 0xE0) * 4096 + (b1.toNat - 0x80) * 64 + (b2.toNat - 0x80) = c at hc
      refine ValidUtf8.cons (c := c) (pre := [b0, b1, b2]) this hc.2.2 ?_
      rw [utf8Char, if_neg (by omega), if_neg hc.1, if_pos hc.2.1]
      simp only [List.cons.injEq, and_true]
      refine ⟨?_, ?_, ?_⟩ <;> apply BitVec.eq_of_toNat_eq <;> rw [toNat_ofNat8 (by omega)] <;> omega
    · simp at h
  split at h
  · rename_i h0 h0' h0'' h1
    split at h
    · rename_i b1 b2 b3 rest
      simp only [Bool.and_eq_true, utf8Cont, decide_eq_true_eq] at h h1
      obtain ⟨⟨⟨h2, h2'⟩, h2''⟩, h3⟩ := h
      have := ih _ (by simp; omega) rest h3 rfl
      simp only [utf8Ok4, Bool.or_eq_true, Bool.and_eq_true, decide_eq_true_eq, beq_iff_eq] at h2
      have hc : ¬ (b0.toNat - 0xF0) * 262144 + (b1.toNat - 0x80) * 4096 + (b2.toNat - 0x80) * 64 + (b3.toNat - 0x80) < 0x10000 ∧
         scalar ((b0.toNat - 0xF0) * 262144 + (b1.toNat - 0x80) * 4096 + (b2.toNat - 0x80) * 64 + (b3.toNat - 0x80)) := by
        unfold scalar; omega
      generalize hcc : (b0.toNat - 0xF0) * 262144 + (b1.toNat - 0x80) * 4096 + (b2.toNat - 0x80) * 64 + (b3.toNat - 0x80) = c at hc
      refine ValidUtf8.cons (c := c) (pre := [b0, b1, b2, b3]) this hc.2 ?_
      rw [utf8Char, if_neg (by omega), if_neg (by omega), if_neg hc.1]
      simp only [List.cons.injEq, and_true]
      refine ⟨?_, ?_, ?_, ?_⟩ <;> apply BitVec.eq_of_toNat_eq <;> rw [toNat_ofNat8 (by omega)] <;> omega
    · simp at h
  · simp at h

theorem utf8Ok_iff (bs : Bytes) : utf8Ok bs = true ↔ ValidUtf8 bs :=
  ⟨valid_of_utf8Ok bs, utf8Ok_of_valid⟩

end QP
