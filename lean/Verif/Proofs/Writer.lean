import Verif.Spec.Programs
import Verif.Proofs.SM
import Verif.Proofs.Varint
/-! Writer programs emit their encodings. -/

namespace QP
open Spec WriterBackend

theorem runOps_append {W : Type} [WriterBackend W] (a b : List Op) :
    (runOps (a ++ b) : SM W Unit) = (do runOps a; runOps b) := by
  induction a with
  | nil => rfl
  | cons o os ih => simp only [List.cons_append, runOps, ih, bind_assoc]

theorem runOps_single {W : Type} [WriterBackend W] (o : Op) :
    (runOps [o] : SM W Unit) = o.run := by
  funext s
  simp only [runOps, SM.bind_run]
  rcases Op.run o s with ⟨x, s'⟩; cases x <;> rfl

theorem Emits.nil : Emits (fun W _ => (pure () : SM W Unit)) [] := ⟨[], fun _ _ => rfl, rfl⟩

theorem Emits.op (o : Op) : Emits (fun W _ => (o.run : SM W Unit)) o.bytes :=
  ⟨[o], fun W _ => (runOps_single o).symm, by simp⟩

theorem Emits.bind {p q : WProg} {a b : Bytes} (hp : Emits p a) (hq : Emits q b) :
    Emits (fun W _ => (do p W; q W)) (a ++ b) := by
  obtain ⟨o1, h1, e1⟩ := hp
  obtain ⟨o2, h2, e2⟩ := hq
  exact ⟨o1 ++ o2, fun W _ => by simp only [runOps_append, h1, h2], by simp [e1, e2]⟩

theorem Emits.congr {p q : WProg} {a b : Bytes} (hp : Emits p a)
    (h : ∀ (W : Type) [WriterBackend W], q W = p W) (hab : a = b) : Emits q b := by
  subst hab
  obtain ⟨o1, h1, e1⟩ := hp
  exact ⟨o1, fun W _ => by rw [h, h1], e1⟩

theorem Emits.u8 (x : Byte) : Emits (fun W _ => (pb_write_u8 x : SM W Unit)) [x] := Emits.op (.u8 x)
theorem Emits.all (bs : Bytes) : Emits (fun W _ => (pb_write_all bs : SM W Unit)) bs := Emits.op (.all bs)

theorem Emits.each {M : Type} {write : M → WProg} {enc : M → Bytes} :
    ∀ (l : List M), (∀ m ∈ l, Emits (write m) (enc m)) →
    Emits (fun W _ => writeEach (fun m => write m W) l) (l.flatMap enc)
  | [], _ => Emits.nil
  | m :: ms, h => by
    simp only [List.flatMap_cons, writeEach]
    exact Emits.bind (h m (by simp)) (Emits.each ms (fun x hx => h x (by simp [hx])))

/-! ### varints -/

theorem varint_small {n : Nat} (h : n < 128) : varint n = [BitVec.ofNat 8 n] := by
  rw [varint, if_pos h]
theorem varint_big {n : Nat} (h : ¬ n < 128) :
    varint n = BitVec.ofNat 8 (n % 128 + 128) :: varint (n / 128) := by
  rw [varint, if_neg h]

theorem emits_varint (v : BitVec 64) :
    Emits (fun W _ => (write_varint v : SM W Unit)) (varint v.toNat) := by
  generalize hn : v.toNat = n
  induction n using Nat.strongRecOn generalizing v with
  | ind n ih =>
    subst hn
    by_cases h : 0x7F#64 < v
    · have h' : ¬ v.toNat < 128 := by
        simp only [BitVec.lt_def, BitVec.toNat_ofNat] at h; omega
      have e : (v >>> 7).toNat = v.toNat / 128 := by
        simp only [BitVec.toNat_ushiftRight, Nat.shiftRight_eq_div_pow]
      have ih' := ih (v.toNat / 128) (by omega) (v >>> 7) e
      rw [varint_big h']
      refine (Emits.bind (Emits.u8 ((v.setWidth 8 &&& 0x7F#8) ||| 0x80#8)) ih').congr ?_ ?_
      · intro W _
        conv => lhs; rw [write_varint]
        rw [if_pos h]
      · simp only [List.singleton_append, List.cons.injEq, and_true]
        have : ∀ b : Byte, (b &&& 0x7F#8) ||| 0x80#8 = BitVec.ofNat 8 (b.toNat % 128 + 128) := by decide
        rw [this]
        congr 1
        simp only [BitVec.toNat_setWidth]; omega
    · have h' : v.toNat < 128 := by
        simp only [BitVec.lt_def, BitVec.toNat_ofNat] at h; omega
      rw [varint_small h']
      refine (Emits.u8 (v.setWidth 8)).congr ?_ ?_
      · intro W _
        conv => lhs; rw [write_varint]
        rw [if_neg h]
      · simp only [List.cons.injEq, and_true]
        apply BitVec.eq_of_toNat_eq
        simp only [BitVec.toNat_setWidth, BitVec.toNat_ofNat]

theorem emits_varint_ofNat {n : Nat} (h : n < 2 ^ 64) :
    Emits (fun W _ => (write_varint (BitVec.ofNat 64 n) : SM W Unit)) (varint n) := by
  have := emits_varint (BitVec.ofNat 64 n)
  rwa [BitVec.toNat_ofNat, Nat.mod_eq_of_lt h] at this

theorem varint_ne_nil (n : Nat) : varint n ≠ [] := by
  rw [varint]; split <;> simp

theorem varintVal_varint (n : Nat) : varintVal (varint n) = n := by
  induction n using Nat.strongRecOn with
  | ind n ih =>
    by_cases h : n < 128
    · rw [varint_small h]
      simp only [varintVal, BitVec.toNat_ofNat]; omega
    · rw [varint_big h]
      simp only [varintVal, BitVec.toNat_ofNat, ih (n / 128) (by omega)]; omega

/-- The length of a canonical varint: at most `k` bytes iff the number fits `7k` bits. -/
theorem length_varint_le (n k : Nat) : (varint n).length ≤ k + 1 ↔ n < 128 ^ (k + 1) := by
  induction k generalizing n with
  | zero =>
    by_cases h : n < 128
    · rw [varint_small h]; simp [h]
    · rw [varint_big h]
      have := varint_ne_nil (n / 128)
      have : (varint (n / 128)).length ≠ 0 := by simpa using this
      simp only [List.length_cons]; omega
  | succ k ih =>
    by_cases h : n < 128
    · rw [varint_small h]
      simp only [List.length_singleton]
      have : 1 ≤ 128 ^ (k + 1) := Nat.one_le_pow _ _ (by omega)
      rw [Nat.pow_succ]; omega
    · rw [varint_big h]
      simp only [List.length_cons, Nat.add_le_add_iff_right]
      rw [ih, Nat.div_lt_iff_lt_mul (by omega), Nat.pow_succ (m := k + 1)]

theorem length_varint_pos (n : Nat) : 1 ≤ (varint n).length := by
  have := varint_ne_nil n
  have : (varint n).length ≠ 0 := by simpa using this
  omega

theorem length_varint_64 {n : Nat} (h : n < 2 ^ 64) : (varint n).length ≤ 10 :=
  (length_varint_le n 9).mpr (by omega)

theorem length_varint_32 {n : Nat} (h : n < 2 ^ 32) : (varint n).length ≤ 5 :=
  (length_varint_le n 4).mpr (by omega)

theorem sizeof_varint_eq (v : BitVec 64) : sizeof_varint v = (varint v.toNat).length := by
  have hp := length_varint_pos v.toNat
  have hv := v.isLt
  have h1 := length_varint_le v.toNat 0
  have h2 := length_varint_le v.toNat 1
  have h3 := length_varint_le v.toNat 2
  have h4 := length_varint_le v.toNat 3
  have h5 := length_varint_le v.toNat 4
  have h6 := length_varint_le v.toNat 5
  have h7 := length_varint_le v.toNat 6
  have h8 := length_varint_le v.toNat 7
  have h9 := length_varint_le v.toNat 8
  have h10 := length_varint_le v.toNat 9
  unfold sizeof_varint
  simp only [BitVec.le_def, BitVec.toNat_ofNat]
  repeat' split
  all_goals omega

/-! ### scanning a varint -/

theorem lastByte_ofNat_small {n : Nat} (h : n < 128) : lastByte (BitVec.ofNat 8 n) = true := by
  simp only [lastByte, BitVec.toNat_ofNat, decide_eq_true_eq]; omega

theorem lastByte_ofNat_big (n : Nat) : lastByte (BitVec.ofNat 8 (n % 128 + 128)) = false := by
  simp only [lastByte, BitVec.toNat_ofNat, decide_eq_false_iff_not]; omega

theorem scan_varint (n k : Nat) (suf : Bytes) (h : (varint n).length ≤ k) :
    scan k (varint n ++ suf) = .done (varint n) := by
  induction k generalizing n with
  | zero => have := length_varint_pos n; omega
  | succ k ih =>
    by_cases hn : n < 128
    · rw [varint_small hn]
      simp only [List.singleton_append, scan, lastByte_ofNat_small hn, if_true]
    · rw [varint_big hn] at h ⊢
      simp only [List.length_cons, Nat.add_le_add_iff_right] at h
      simp only [List.cons_append, scan, lastByte_ofNat_big, ih _ h]
      rfl

/-! ### fixed width -/

theorem le32_eq (x : BitVec 32) : le32 x = le 4 x.toNat := by
  have := x.isLt
  simp only [le32, le, List.cons.injEq, and_true]
  refine ⟨?_, ?_, ?_, ?_⟩ <;> apply BitVec.eq_of_toNat_eq <;>
    simp only [BitVec.toNat_setWidth, BitVec.toNat_ushiftRight, BitVec.toNat_ofNat,
      Nat.shiftRight_eq_div_pow] <;> omega

theorem le64_eq (x : BitVec 64) : le64 x = le 8 x.toNat := by
  have := x.isLt
  simp only [le64, le, List.cons.injEq, and_true]
  refine ⟨?_, ?_, ?_, ?_, ?_, ?_, ?_, ?_⟩ <;> apply BitVec.eq_of_toNat_eq <;>
    simp only [BitVec.toNat_setWidth, BitVec.toNat_ushiftRight, BitVec.toNat_ofNat,
      Nat.shiftRight_eq_div_pow] <;> omega

theorem length_le (k n : Nat) : (le k n).length = k := by
  induction k generalizing n with
  | zero => rfl
  | succ k ih => simp [le, ih]

end QP
