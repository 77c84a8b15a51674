import Verif.Props.Delimited
/-!
# C13, C29, C30: `PackedFixed`
-/

set_option linter.unusedVariables false

namespace QP
open Spec BytesReader

/-- Values are found again in memory. -/
structure MemTy.Faithful {α : Type} (M : MemTy α) : Prop where
  pos : 0 < M.size
  store_len : ∀ a, (M.store a).length = M.size
  load_store : ∀ a, M.load (M.store a) = some a

/-- A type all of whose bit patterns are valid and which is determined by its bytes: the numeric
types `PackedFixed` is meant for. -/
structure MemTy.Plain {α : Type} (M : MemTy α) : Prop extends M.Faithful where
  store_load : ∀ bs : Bytes, bs.length = M.size → ∃ a, M.load bs = some a ∧ M.store a = bs

instance {α : Type} {M : MemTy α} : Coe M.Plain M.Faithful := ⟨MemTy.Plain.toFaithful⟩

/-- The sequence of numbers a `PackedFixed` stands for. -/
def PackedFixed.Denotes {α : Type} (M : MemTy α) : PackedFixed α → List α → Prop
  | .noDataYet, v => v = []
  | .owned w, v => v = w
  | .borrowed bytes, v => bytes = v.flatMap M.store

/-! ### numeric types are plain -/

theorem memLE_eq {w : Nat} (k : Nat) (x : BitVec w) : memLE k x = le k x.toNat := by
  induction k generalizing x with
  | zero => rfl
  | succ k ih =>
    simp only [memLE, le, ih, List.cons.injEq]
    constructor
    · apply BitVec.eq_of_toNat_eq
      simp only [BitVec.toNat_setWidth, BitVec.toNat_ofNat]; omega
    · simp only [BitVec.toNat_ushiftRight, Nat.shiftRight_eq_div_pow]

theorem loadLE_toNat {w : Nat} (bs : Bytes) (h : 8 * bs.length ≤ w) :
    (loadLE w bs).toNat = leVal bs := by
  induction bs with
  | nil => simp [loadLE, leVal]
  | cons b bs ih =>
    simp only [List.length_cons] at h
    have hb := b.isLt
    have ih := ih (by omega)
    have hlt := leVal_lt bs
    have hp : leVal bs * 2 ^ 8 < 2 ^ w := by
      calc leVal bs * 2 ^ 8 < 256 ^ bs.length * 2 ^ 8 :=
            Nat.mul_lt_mul_of_pos_right hlt (by omega)
        _ = 2 ^ (8 * bs.length + 8) := by
            rw [show (256 : Nat) = 2 ^ 8 from rfl, ← Nat.pow_mul, ← Nat.pow_add]
        _ ≤ 2 ^ w := Nat.pow_le_pow_right (by omega) (by omega)
    simp only [loadLE, leVal]
    rw [toNat_or_shift _ _ 8 w (by rw [byte_setWidth b (by omega)]; omega) (by rw [ih]; exact hp)
      (Nat.le_refl _), byte_setWidth b (by omega), ih]
    omega

theorem le_leVal (bs : Bytes) : le bs.length (leVal bs) = bs := by
  induction bs with
  | nil => rfl
  | cons b bs ih =>
    have hb := b.isLt
    simp only [List.length_cons, le, leVal]
    rw [show (b.toNat + 256 * leVal bs) / 256 = leVal bs by omega, ih,
      show (b.toNat + 256 * leVal bs) % 256 = b.toNat by omega]
    simp

theorem MemTy.int_plain (T : Target) (k : Nat) (hk : 0 < k) : (MemTy.int T k).Plain := by
  have hle : ∀ bs : Bytes, bs.length = k → memLE k (loadLE (8 * k) bs) = bs := by
    intro bs hb
    rw [memLE_eq, loadLE_toNat bs (by omega), ← hb, le_leVal]
  have hload : ∀ x : BitVec (8 * k), loadLE (8 * k) (memLE k x) = x := by
    intro x
    apply BitVec.eq_of_toNat_eq
    rw [memLE_eq, loadLE_toNat _ (by rw [length_le]; omega), leVal_le]
    apply Nat.mod_eq_of_lt
    have := x.isLt
    rw [Nat.pow_mul] at this
    exact this
  have hlen : ∀ x : BitVec (8 * k), (memLE k x).length = k := by
    intro x; rw [memLE_eq, length_le]
  refine ⟨⟨hk, ?_, ?_⟩, ?_⟩
  · intro a
    simp only [MemTy.int]
    split <;> simp [hlen]
  · intro a
    simp only [MemTy.int]
    split <;> simp [hload]
  · intro bs hb
    refine ⟨_, rfl, ?_⟩
    simp only [MemTy.int] at *
    split
    · rw [hle _ (by simpa using hb)]; simp
    · rw [hle _ hb]

theorem MemTy.f32_plain (T : Target) : (MemTy.f32 T).Plain :=
  let h := MemTy.int_plain T 4 (by omega)
  ⟨⟨h.pos, h.store_len, h.load_store⟩, h.store_load⟩

theorem MemTy.f64_plain (T : Target) : (MemTy.f64 T).Plain :=
  let h := MemTy.int_plain T 8 (by omega)
  ⟨⟨h.pos, h.store_len, h.load_store⟩, h.store_load⟩

/-! ### lists of stored elements -/

section
variable {α : Type} {M : MemTy α} (hM : M.Faithful)
include hM

theorem store_all_length (v : List α) : (v.flatMap M.store).length = v.length * M.size := by
  induction v with
  | nil => simp
  | cons a as ih => simp only [List.flatMap_cons, List.length_append, hM.store_len, ih,
      List.length_cons, Nat.add_mul]; omega

theorem loadAll_store (v : List α) : M.loadAll v.length (v.flatMap M.store) = some v := by
  induction v with
  | nil => rfl
  | cons a as ih =>
    simp only [List.length_cons, MemTy.loadAll, List.flatMap_cons]
    rw [List.take_left' (hM.store_len a), List.drop_left' (hM.store_len a), hM.load_store, ih]

theorem drop_store_all (v : List α) (i : Nat) :
    (v.flatMap M.store).drop (i * M.size) = (v.drop i).flatMap M.store := by
  induction i generalizing v with
  | zero => simp
  | succ i ih =>
    cases v with
    | nil => simp
    | cons a as =>
      simp only [List.flatMap_cons, List.drop_succ_cons]
      rw [← ih, Nat.add_mul, Nat.one_mul, Nat.add_comm, ← List.drop_drop,
        List.drop_left' (hM.store_len a)]

end

section
variable {α : Type} {M : MemTy α} (hM : M.Plain)
include hM

/-- Every byte string of a whole number of elements denotes a list. -/
theorem denotes_of_dvd (bytes : Bytes) (h : M.size ∣ bytes.length) :
    ∃ v : List α, bytes = v.flatMap M.store := by
  obtain ⟨n, hn⟩ := h
  induction n generalizing bytes with
  | zero => exact ⟨[], by simpa using hn⟩
  | succ n ih =>
    rw [Nat.mul_add, Nat.mul_one] at hn
    obtain ⟨a, h1, h2⟩ := hM.store_load (bytes.take M.size) (by simp; omega)
    obtain ⟨v, hv⟩ := ih (bytes.drop M.size) (by simp; omega)
    refine ⟨a :: v, ?_⟩
    rw [List.flatMap_cons, h2, ← hv, List.take_append_drop]

end

/-! ## C29 -/

section
variable {α : Type} {M : MemTy α} (hM : M.Faithful) {T : Target} {pf : PackedFixed α} {v : List α}
include hM

theorem pf_len (h : pf.Denotes M v) : pf.len M = .ok v.length := by
  cases pf with
  | noDataYet => cases h; rfl
  | owned w => cases h; rfl
  | borrowed bytes =>
    have h : bytes = v.flatMap M.store := h
    have := hM.pos
    simp only [PackedFixed.len, h, store_all_length hM]
    rw [if_neg (by omega), Nat.mul_div_cancel _ this]

theorem pf_is_empty (h : pf.Denotes M v) : pf.is_empty = v.isEmpty := by
  cases pf with
  | noDataYet => cases h; rfl
  | owned w => cases h; rfl
  | borrowed bytes =>
    have h : bytes = v.flatMap M.store := h
    subst h
    cases v with
    | nil => rfl
    | cons a as =>
      have := hM.store_len a
      have hp := hM.pos
      simp only [PackedFixed.is_empty, List.flatMap_cons, List.isEmpty_cons]
      cases hs : M.store a with
      | nil => rw [hs] at this; simp at this; omega
      | cons => rfl

theorem pf_at (h : pf.Denotes M v) (i : Nat) (hi : i < v.length)
    (hT : v.length * M.size < 2 ^ T.usizeBits) : pf.at M T i = .ok v[i] := by
  cases pf with
  | noDataYet => cases h; simp at hi
  | owned w => cases h; simp [PackedFixed.at, hi]
  | borrowed bytes =>
    have h : bytes = v.flatMap M.store := h
    subst h
    have hle : (i + 1) * M.size ≤ v.length * M.size := Nat.mul_le_mul_right _ hi
    rw [Nat.add_mul, Nat.one_mul] at hle
    have hp := hM.pos
    simp only [PackedFixed.at, Target.usizeMul, store_all_length hM]
    rw [if_pos (by omega)]
    simp only
    rw [if_neg (by omega), if_neg (by omega), drop_store_all hM,
      List.drop_eq_getElem_cons hi, List.flatMap_cons, List.take_left' (hM.store_len _),
      hM.load_store]

theorem pf_at_out (h : pf.Denotes M v) (i : Nat) (hi : v.length ≤ i)
    (hT : i * M.size < 2 ^ T.usizeBits ∨ T.overflowChecks = true) : pf.at M T i = .panic := by
  cases pf with
  | noDataYet => rfl
  | owned w => cases h; simp [PackedFixed.at, List.getElem?_eq_none hi]
  | borrowed bytes =>
    have h : bytes = v.flatMap M.store := h
    subst h
    have hle : v.length * M.size ≤ i * M.size := Nat.mul_le_mul_right _ hi
    simp only [PackedFixed.at, Target.usizeMul, store_all_length hM]
    by_cases h1 : i * M.size < 2 ^ T.usizeBits
    · rw [if_pos h1]
      simp only
      rw [if_pos (by omega)]
    · rw [if_neg h1, if_pos (hT.resolve_left h1)]

theorem pf_make_vec {bytes : Bytes} (h : (PackedFixed.borrowed bytes : PackedFixed α).Denotes M v) :
    PackedFixed.make_vec_from_unaligned_buf M (.borrowed bytes) = .ok v := by
  have h : bytes = v.flatMap M.store := h
  subst h
  have hp := hM.pos
  simp only [PackedFixed.make_vec_from_unaligned_buf, store_all_length hM,
    Nat.mul_div_cancel _ hp, loadAll_store hM]
  rw [if_neg (by omega), if_neg (by omega)]

theorem pf_into_vec (h : pf.Denotes M v) : pf.into_vec M = .ok v := by
  cases pf with
  | noDataYet => cases h; rfl
  | owned w => cases h; rfl
  | borrowed bytes => exact pf_make_vec hM h

theorem pf_own (h : pf.Denotes M v) : pf.own M = .ok (.owned v) := by
  cases pf with
  | noDataYet => cases h; rfl
  | owned w => cases h; rfl
  | borrowed bytes =>
    simp only [PackedFixed.own, PackedFixed.make_owned_variant_from_unaligned_buf, pf_make_vec hM h]

theorem pf_next (h : pf.Denotes M v) (hT : v.length * M.size < 2 ^ T.usizeBits) (i : Nat) :
    pf.next M T i = if hi : i < v.length then .ok (some v[i], i + 1) else .ok (none, i) := by
  simp only [PackedFixed.next, pf_len hM h]
  by_cases hi : i < v.length
  · rw [if_neg (by omega), dif_pos hi, pf_at hM h i hi hT]
  · rw [if_pos (by omega), dif_neg hi]

theorem pf_collect (h : pf.Denotes M v) (hT : v.length * M.size < 2 ^ T.usizeBits) (fuel i : Nat)
    (hf : v.length - i < fuel) : pf.collect M T fuel i = .ok (v.drop i) := by
  induction fuel generalizing i with
  | zero => omega
  | succ n ih =>
    simp only [PackedFixed.collect, pf_next hM h hT]
    by_cases hi : i < v.length
    · rw [dif_pos hi]
      simp only [ih (i + 1) (by omega)]
      rw [List.drop_eq_getElem_cons hi]
    · rw [dif_neg hi]
      simp only [List.drop_eq_nil_of_le (by omega : v.length ≤ i)]

end

/-- Element-wise comparison with `T`'s own equality, lengths included. -/
def listEq {α : Type} (eq : α → α → Bool) : List α → List α → Bool
  | [], [] => true
  | a :: as, b :: bs => eq a b && listEq eq as bs
  | _, _ => false

theorem pf_eqLoop {α : Type} {M : MemTy α} (hM : M.Faithful) {T : Target} {p q : PackedFixed α}
    {v w : List α} (hp : p.Denotes M v) (hq : q.Denotes M w)
    (hv : v.length * M.size < 2 ^ T.usizeBits) (hw : w.length * M.size < 2 ^ T.usizeBits)
    (fuel i : Nat) (hf : v.length - i < fuel) :
    PackedFixed.eqLoop M T p q fuel i i = .ok (listEq M.eq (v.drop i) (w.drop i)) := by
  induction fuel generalizing i with
  | zero => omega
  | succ n ih =>
    simp only [PackedFixed.eqLoop, pf_next hM hp hv, pf_next hM hq hw]
    by_cases hi : i < v.length
    · rw [dif_pos hi, List.drop_eq_getElem_cons hi]
      by_cases hj : i < w.length
      · rw [dif_pos hj, List.drop_eq_getElem_cons hj]
        simp only [listEq]
        cases M.eq v[i] w[i]
        · simp
        · simp [ih (i + 1) (by omega)]
      · rw [dif_neg hj, List.drop_eq_nil_of_le (by omega : w.length ≤ i)]
        rfl
    · rw [dif_neg hi, List.drop_eq_nil_of_le (by omega : v.length ≤ i)]
      by_cases hj : i < w.length
      · rw [dif_pos hj, List.drop_eq_getElem_cons hj]
        rfl
      · rw [dif_neg hj, List.drop_eq_nil_of_le (by omega : w.length ≤ i)]
        rfl

/-- **C29.** Whatever its variant, a `PackedFixed` that stands for the numbers `v` behaves like
`v`: `len`, `is_empty`, `at` (in range: the element; out of range: the documented panic),
`into_vec`, `own` (which only changes the variant), `to_slice`, `to_mut_slice`, iteration (by value
and by reference run the same `next`) and `==`. -/
theorem C29_packedFixed_is_list (T : Target) {α : Type} (M : MemTy α) (hM : M.Faithful)
    (pf : PackedFixed α) (v : List α) (h : pf.Denotes M v)
    (hT : v.length * M.size < 2 ^ T.usizeBits) :
    pf.len M = .ok v.length ∧
    pf.is_empty = v.isEmpty ∧
    (∀ i (hi : i < v.length), pf.at M T i = .ok v[i]) ∧
    (∀ i, v.length ≤ i → (i * M.size < 2 ^ T.usizeBits ∨ T.overflowChecks = true) →
      pf.at M T i = .panic) ∧
    pf.into_vec M = .ok v ∧
    (∃ pf', pf.own M = .ok pf' ∧ pf'.Denotes M v) ∧
    (∃ pf', pf.to_slice M = .ok (pf', v) ∧ pf'.Denotes M v) ∧
    (∀ f : List α → List α, ∃ pf', pf.to_mut_slice M f = .ok pf' ∧ pf'.Denotes M (f v)) ∧
    (∀ fuel, v.length < fuel → pf.collect M T fuel 0 = .ok v) ∧
    (∀ (pf' : PackedFixed α) (v' : List α), pf'.Denotes M v' →
      v'.length * M.size < 2 ^ T.usizeBits → ∀ fuel, v.length < fuel →
      PackedFixed.eqLoop M T pf pf' fuel 0 0 = .ok (listEq M.eq v v')) := by
  refine ⟨pf_len hM h, pf_is_empty hM h, fun i hi => pf_at hM h i hi hT,
    fun i hi ho => pf_at_out hM h i hi ho, pf_into_vec hM h,
    ⟨_, pf_own hM h, rfl⟩, ⟨.owned v, ?_, rfl⟩, fun f => ⟨.owned (f v), ?_, rfl⟩, ?_, ?_⟩
  · simp only [PackedFixed.to_slice, pf_own hM h]
  · simp only [PackedFixed.to_mut_slice, pf_own hM h]
  · intro fuel hf
    have := pf_collect hM h hT fuel 0 (by omega)
    simpa using this
  · intro pf' v' h' hT' fuel hf
    have := pf_eqLoop hM h h' hT hT' fuel 0 (by omega)
    simpa using this

/-- `==` of integers and of `bool`s is equality. -/
theorem C29_eq_int (T : Target) (k : Nat) (a b : BitVec (8 * k)) : (MemTy.int T k).eq a b = true ↔ a = b := beq_iff_eq

/-- The theorem above is about integers and floating-point numbers, … -/
theorem C29_faithful_numbers (T : Target) : (∀ k, 0 < k → (MemTy.int T k).Faithful) ∧ (MemTy.f32 T).Faithful ∧ (MemTy.f64 T).Faithful :=
  ⟨fun k hk => (MemTy.int_plain T k hk).toFaithful, (MemTy.f32_plain T).toFaithful, (MemTy.f64_plain T).toFaithful⟩

/-- … and about `bool`s; a borrowed `bool` is the byte 0 or 1. -/
theorem C29_faithful_bool : MemTy.bool.Faithful ∧ ∀ (bytes : Bytes) (v : List Bool),
    (PackedFixed.fromBytes bytes : PackedFixed Bool).Denotes MemTy.bool v ↔ bytes = v.map fun b => if b then 1 else 0 := by
  refine ⟨⟨by decide, by decide, by decide⟩, fun bytes v => ?_⟩
  have : (v.flatMap MemTy.bool.store) = v.map fun b => if b then 1 else 0 := by
    induction v with
    | nil => rfl
    | cons b v ih => rw [List.flatMap_cons, ih, List.map_cons]; cases b <;> rfl
  show bytes = v.flatMap MemTy.bool.store ↔ _
  rw [this]

theorem C29_eq_bool (a b : Bool) : MemTy.bool.eq a b = true ↔ a = b := beq_iff_eq

/-- Is the bit pattern of a floating-point number with `e` bits of exponent and `m` bits of mantissa that of a NaN: all bits of the exponent
set, and some of the mantissa? -/
def IsNan (e m n : Nat) : Prop := n / 2 ^ m % 2 ^ e = 2 ^ e - 1 ∧ n % 2 ^ m ≠ 0

/-- Is it that of a zero, of either sign? -/
def IsZero (e m n : Nat) : Prop := n % 2 ^ (e + m) = 0

/-- `==` of floating-point numbers, by their bits: no NaN, and the same bits or two zeros. -/
theorem C29_eq_f32 (T : Target) (a b : BitVec 32) :
    (MemTy.f32 T).eq a b = true ↔ ¬ IsNan 8 23 a.toNat ∧ ¬ IsNan 8 23 b.toNat ∧ (a = b ∨ IsZero 8 23 a.toNat ∧ IsZero 8 23 b.toNat) := by
  have hm : ∀ x : BitVec 32, (x &&& 0x7fffffff#32).toNat = x.toNat % 2 ^ 31 := by
    intro x
    rw [BitVec.toNat_and]
    exact Nat.and_two_pow_sub_one_eq_mod _ 31
  have hn : ∀ x : BitVec 32, 0x7f800000#32 < (x &&& 0x7fffffff#32) ↔ IsNan 8 23 x.toNat := by
    intro x
    rw [BitVec.lt_def, hm]
    have := x.isLt
    unfold IsNan
    simp only [BitVec.toNat_ofNat]
    omega
  have hz : ∀ x : BitVec 32, (x &&& 0x7fffffff#32) = 0 ↔ IsZero 8 23 x.toNat := by
    intro x
    rw [← BitVec.toNat_inj, hm]
    unfold IsZero
    simp
  have key : ∀ (na nb za zb : Bool), (if (na || nb) = true then false else if (za && zb) = true then true else a == b) = true ↔
      na = false ∧ nb = false ∧ (a = b ∨ za = true ∧ zb = true) := by
    intro na nb za zb
    cases na <;> cases nb <;> cases za <;> cases zb <;> simp
  refine (key (decide (0x7f800000#32 < (a &&& 0x7fffffff#32))) (decide (0x7f800000#32 < (b &&& 0x7fffffff#32))) ((a &&& 0x7fffffff#32) == 0) ((b &&& 0x7fffffff#32) == 0)).trans ?_
  rw [decide_eq_false_iff_not, decide_eq_false_iff_not, beq_iff_eq, beq_iff_eq, hn, hn, hz, hz]

theorem C29_eq_f64 (T : Target) (a b : BitVec 64) :
    (MemTy.f64 T).eq a b = true ↔ ¬ IsNan 11 52 a.toNat ∧ ¬ IsNan 11 52 b.toNat ∧ (a = b ∨ IsZero 11 52 a.toNat ∧ IsZero 11 52 b.toNat) := by
  have hm : ∀ x : BitVec 64, (x &&& 0x7fffffffffffffff#64).toNat = x.toNat % 2 ^ 63 := by
    intro x
    rw [BitVec.toNat_and]
    exact Nat.and_two_pow_sub_one_eq_mod _ 63
  have hn : ∀ x : BitVec 64, 0x7ff0000000000000#64 < (x &&& 0x7fffffffffffffff#64) ↔ IsNan 11 52 x.toNat := by
    intro x
    rw [BitVec.lt_def, hm]
    have := x.isLt
    unfold IsNan
    simp only [BitVec.toNat_ofNat]
    omega
  have hz : ∀ x : BitVec 64, (x &&& 0x7fffffffffffffff#64) = 0 ↔ IsZero 11 52 x.toNat := by
    intro x
    rw [← BitVec.toNat_inj, hm]
    unfold IsZero
    simp
  have key : ∀ (na nb za zb : Bool), (if (na || nb) = true then false else if (za && zb) = true then true else a == b) = true ↔
      na = false ∧ nb = false ∧ (a = b ∨ za = true ∧ zb = true) := by
    intro na nb za zb
    cases na <;> cases nb <;> cases za <;> cases zb <;> simp
  refine (key (decide (0x7ff0000000000000#64 < (a &&& 0x7fffffffffffffff#64))) (decide (0x7ff0000000000000#64 < (b &&& 0x7fffffffffffffff#64))) ((a &&& 0x7fffffffffffffff#64) == 0) ((b &&& 0x7fffffffffffffff#64) == 0)).trans ?_
  rw [decide_eq_false_iff_not, decide_eq_false_iff_not, beq_iff_eq, beq_iff_eq, hn, hn, hz, hz]

/-- For example: `1.0`, a NaN, and the two zeros. -/
example : (MemTy.f32 Target.release64).eq 0x3f800000#32 0x3f800000#32 = true ∧ (MemTy.f32 Target.release64).eq 0x7fc00000#32 0x7fc00000#32 = false ∧
    (MemTy.f32 Target.release64).eq 0#32 0x80000000#32 = true := by decide

/-- In release builds `at` with a huge index wraps around instead of panicking: on a 64-bit target,
index `2^61` of a list of eight-byte numbers is element 0. -/
theorem C29_at_wraps_in_release :
    (PackedFixed.fromBytes (List.replicate 8 7#8) : PackedFixed (BitVec (8 * 8))).at
      (MemTy.int Target.release64 8) Target.release64 (2 ^ 61)
      = .ok 0x0707070707070707#64 := by decide

example : ∃ (pf : PackedFixed (BitVec (8 * 4))),
    pf = .borrowed [1#8, 0#8, 0#8, 0#8, 2#8, 0#8, 0#8, 0#8] ∧
    pf.Denotes (MemTy.int Target.debug64 4) [1#32, 2#32] := ⟨_, rfl, rfl⟩

/-! ## C30 -/

/-- The outcome is not an out-of-bounds access. -/
def Out.Safe {α : Type} (o : Out α) : Prop := o ≠ .ub

/-- All safe calls on `pf` stay inside its allocation. -/
structure PackedFixed.AllSafe {α : Type} (M : MemTy α) (T : Target) (pf : PackedFixed α) : Prop where
  len : (pf.len M).Safe
  «at» : ∀ i, (pf.at M T i).Safe
  own : (pf.own M).Safe
  into_vec : (pf.into_vec M).Safe
  to_slice : (pf.to_slice M).Safe
  next : ∀ i, (pf.next M T i).Safe

theorem mod_mul_add_le {a s n : Nat} (hs : 0 < s) (hd : s ∣ n) (ha : s ∣ a) (h : a < n) :
    a + s ≤ n := by
  obtain ⟨k, rfl⟩ := hd
  obtain ⟨j, rfl⟩ := ha
  have : j < k := Nat.lt_of_mul_lt_mul_left h
  have : s * (j + 1) ≤ s * k := Nat.mul_le_mul_left s this
  rw [Nat.mul_add] at this
  omega

/-- **C30**, partial: every safe call on a `PackedFixed` of plain numbers that is not built from
raw bytes of a ragged length is memory safe — in particular on everything `read_packed_fixed`
returns and everything built from a `Vec<T>`. (`hpow`: the size of the element divides the address
space, true for 4 and 8.) Missing: raw bytes of a length that is not a multiple of the element
size, and types with invalid bit patterns; there it is false, see `C30_ragged_*` and
`C30_invalid_bool`. -/
theorem C30_packedFixed_safe_partial (T : Target) {α : Type} (M : MemTy α) (hM : M.Plain)
    (hpow : M.size ∣ 2 ^ T.usizeBits) (pf : PackedFixed α)
    (h : ∀ bytes, pf = .borrowed bytes → M.size ∣ bytes.length) : pf.AllSafe M T := by
  have hat : ∀ i, (pf.at M T i).Safe := by
    intro i
    cases pf with
    | noDataYet => simp [PackedFixed.at, Out.Safe]
    | owned w => simp only [PackedFixed.at, Out.Safe]; split <;> simp
    | borrowed bytes =>
      have hd := h bytes rfl
      have hp := hM.pos
      have key : ∀ o, M.size ∣ o → (if o ≥ bytes.length then (.panic : Out α)
          else if o + M.size > bytes.length then .ub
          else match M.load ((bytes.drop o).take M.size) with
            | some a => .ok a
            | none => .ub) ≠ .ub := by
        intro o ho
        by_cases h1 : o ≥ bytes.length
        · rw [if_pos h1]; simp
        · have h2 := mod_mul_add_le hp hd ho (by omega)
          rw [if_neg h1, if_neg (by omega)]
          obtain ⟨a, ha, _⟩ := hM.store_load ((bytes.drop o).take M.size) (by simp; omega)
          rw [ha]; simp
      simp only [PackedFixed.at, Target.usizeMul, Out.Safe]
      by_cases h1 : i * M.size < 2 ^ T.usizeBits
      · rw [if_pos h1]; exact key _ (Nat.dvd_mul_left _ _)
      · rw [if_neg h1]
        by_cases h2 : T.overflowChecks = true
        · rw [if_pos h2]; simp
        · rw [if_neg h2]
          exact key _ ((Nat.dvd_mod_iff hpow).mpr (Nat.dvd_mul_left _ _))
  obtain ⟨v, hv⟩ : ∃ v, pf.Denotes M v := by
    cases pf with
    | noDataYet => exact ⟨[], rfl⟩
    | owned w => exact ⟨w, rfl⟩
    | borrowed bytes => exact denotes_of_dvd hM bytes (h bytes rfl)
  refine ⟨?_, hat, ?_, ?_, ?_, ?_⟩
  · rw [pf_len hM hv]; simp [Out.Safe]
  · rw [pf_own hM hv]; simp [Out.Safe]
  · rw [pf_into_vec hM hv]; simp [Out.Safe]
  · simp only [PackedFixed.to_slice, pf_own hM hv]; simp [Out.Safe]
  · intro i
    simp only [PackedFixed.next, pf_len hM hv]
    split
    · simp [Out.Safe]
    · have := hat i
      cases ho : pf.at M T i <;> simp_all [Out.Safe]

/-- `read_packed_fixed` only returns whole numbers of elements, so C30 applies to its results. -/
theorem C30_reader_gives_whole (T : Target) (h32 : 32 ≤ T.usizeBits) {α : Type} (M : MemTy α)
    (bytes : Bytes) (hb : bytes.length < 2 ^ T.usizeBits)
    (r r' : BytesReader) (pf : PackedFixed α)
    (h : read_packed_fixed T M bytes r = (.ok pf, r')) :
    ∃ chunk, pf = .borrowed chunk ∧ M.size ∣ chunk.length := by
  simp only [read_packed_fixed, SM.bind_run] at h
  split at h <;> try (simp at h; done)
  rename_i len r1 _
  simp only [BytesReader.len, SM.bind_run, SM.get_run, SM.lift_run] at h
  cases hs : T.usizeSub r1.fin r1.start <;> rw [hs] at h <;> simp only [SM.ite_run] at h <;>
    try (simp at h; done)
  rename_i rem
  split at h
  · simp [SM.throw_run] at h
  split at h
  · simp [SM.lift_run] at h
  rename_i hsz
  simp only [SM.bind_run, SM.get_run, SM.lift_run] at h
  have hlen : len.toNat / M.size * M.size < 2 ^ T.usizeBits := by
    have h1 := Nat.div_mul_le_self len.toNat M.size
    have h2 := len.isLt
    have h3 : 2 ^ 32 ≤ 2 ^ T.usizeBits := Nat.pow_le_pow_right (by omega) h32
    omega
  cases ha : T.usizeAdd r1.start (len.toNat / M.size * M.size) <;> rw [ha] at h <;>
    simp only [] at h <;> try (simp at h; done)
  rename_i stop
  cases hx : getRange bytes r1.start stop with
  | none => rw [hx] at h; simp only [SM.lift_run] at h; simp at h
  | some x =>
    rw [hx] at h
    simp only [SM.pure_run] at h
    have hlx : M.size ∣ x.length := by
      unfold getRange at hx
      split at hx
      · rename_i hc
        simp only [Option.some.injEq] at hx
        subst hx
        have hstop : stop = r1.start + len.toNat / M.size * M.size := by
          unfold Target.usizeAdd at ha
          split at ha
          · simpa using ha.symm
          · split at ha
            · simp at ha
            · simp only [Out.ok.injEq] at ha
              rw [Nat.mod_eq_sub_mod (by omega), Nat.mod_eq_of_lt (by omega)] at ha
              omega
        simp only [List.length_take, List.length_drop]
        rw [Nat.min_eq_left (by omega)]
        exact ⟨len.toNat / M.size, by rw [Nat.mul_comm]; omega⟩
      · simp at hx
    cases hc : T.usizeAdd r1.start len.toNat <;> rw [hc] at h <;> simp only [SM.set_run] at h <;>
      try (simp at h; done)
    simp only [Prod.mk.injEq, Out.ok.injEq] at h
    exact ⟨x, h.1.symm, hlx⟩

/-- The full C30 is false: `PackedFixed::<u32>::from(&[u8])` accepts five bytes, and `own` /
`into_vec` / `to_slice` then copy five bytes into a four-byte allocation. -/
theorem C30_ragged_into_vec :
    let pf : PackedFixed (BitVec (8 * 4)) := .fromBytes [1, 0, 0, 0, 9]
    pf.into_vec (MemTy.int Target.release64 4) = .ub ∧
    pf.own (MemTy.int Target.release64 4) = .ub ∧
    pf.to_slice (MemTy.int Target.release64 4) = .ub := by decide

/-- … and it is so for every length that is not a multiple of the element size. -/
theorem C30_ragged_into_vec_all {α : Type} (M : MemTy α) (hp : 0 < M.size) (bytes : Bytes)
    (h : ¬ M.size ∣ bytes.length) :
    (PackedFixed.fromBytes bytes : PackedFixed α).into_vec M = .ub ∧
    (PackedFixed.fromBytes bytes : PackedFixed α).own M = .ub := by
  have h1 : bytes.length / M.size * M.size < bytes.length := by
    have := Nat.div_mul_le_self bytes.length M.size
    rcases Nat.lt_or_eq_of_le this with h2 | h2
    · exact h2
    · exact absurd ⟨bytes.length / M.size, by rw [Nat.mul_comm]; omega⟩ h
  have h2 : PackedFixed.make_vec_from_unaligned_buf M (PackedFixed.fromBytes bytes) = .ub := by
    simp only [PackedFixed.fromBytes, PackedFixed.make_vec_from_unaligned_buf]
    rw [if_neg (by omega), if_pos h1]
  refine ⟨h2, ?_⟩
  simp only [PackedFixed.fromBytes] at h2
  simp only [PackedFixed.fromBytes, PackedFixed.own,
    PackedFixed.make_owned_variant_from_unaligned_buf, h2]

/-- On the same value `len()` is 1, yet `at(1)` does not panic: it reads past the slice. -/
theorem C30_ragged_at :
    let pf : PackedFixed (BitVec (8 * 4)) := .fromBytes [1, 0, 0, 0, 9]
    pf.len (MemTy.int Target.release64 4) = .ok 1 ∧
    pf.at (MemTy.int Target.release64 4) Target.release64 1 = .ub := by decide

/-- `PackedFixed<bool>` is a legal type (`bool: Copy + PartialEq`) and lets safe code build an
invalid `bool` from the byte 2. -/
theorem C30_invalid_bool :
    let pf : PackedFixed Bool := .fromBytes [2]
    pf.into_vec MemTy.bool = .ub ∧ pf.at MemTy.bool Target.release64 0 = .ub := by decide

/-- `write_packed_fixed_size_with_tag` trusts its `item_size`: with an owned vector of one number
and `item_size = 2` it reads past the vector (`from_raw_parts`), whatever the backend. -/
theorem C30_write_size_with_tag_ub :
    ((write_packed_fixed_size_with_tag (MemTy.int Target.release64 4) 10#32
      (.owned [7#32]) 2 : SM VecWriter Unit) ⟨[]⟩).1 = .ub := by
  have h := (emits_tag 10#32).vec []
  simp only [write_packed_fixed_size_with_tag]
  rw [if_neg (by decide), SM.bind_ok h]
  rfl

/-! ## C13 -/

/-- `read_packed_fixed` hands out the payload itself, whatever the element type. -/
theorem reads_packed_fixed {T : Target} {α : Type} (M : MemTy α) (hM : M.Plain)
    (v : List α) (hlen : v.length * M.size < 2 ^ 32) :
    ReadsAs T (read_packed_fixed T M) (delimited (v.flatMap M.store))
      (.borrowed (v.flatMap M.store)) := by
  have hl := store_all_length hM.toFaithful v
  have hp := hM.pos
  unfold delimited
  intro pre suf fin hlt hfin
  simp only [List.length_append] at hlt hfin
  have h1 := reads_varint32 (T := T) (n := (v.flatMap M.store).length) (by omega) pre
    (v.flatMap M.store ++ suf) fin (by simp only [List.length_append]; omega) (by omega)
  simp only [List.append_assoc] at h1 ⊢
  have hn : (BitVec.ofNat 32 (v.flatMap M.store).length).toNat = (v.flatMap M.store).length := by
    rw [BitVec.toNat_ofNat, Nat.mod_eq_of_lt (by omega)]
  have hq : (v.flatMap M.store).length / M.size * M.size = (v.flatMap M.store).length := by
    rw [hl, Nat.mul_div_cancel _ hp]
  have hr := getRange_pre (pre ++ varint (v.flatMap M.store).length) (v.flatMap M.store) suf
  simp only [List.append_assoc, List.length_append] at hr
  simp only [read_packed_fixed, SM.bind_run, h1, BytesReader.len, SM.get_run, SM.lift_run]
  rw [usizeSub_ok (by omega)]
  simp only [SM.ite_run]
  rw [hn, if_neg (by omega), if_neg (by omega)]
  simp only [SM.bind_run, SM.get_run, SM.lift_run, hq]
  rw [usizeAdd_ok (by omega)]
  simp only [hr, SM.pure_run, SM.set_run, List.length_append]
  simp only [Nat.add_assoc]

/-- The element types of `PackedFixed` on a little-endian machine lie in memory as the wire format
demands. -/
structure MemTy.LittleEndian {w : Nat} (M : MemTy (BitVec w)) : Prop extends M.Plain where
  le : ∀ a, M.store a = Spec.le M.size a.toNat

theorem MemTy.int_le (T : Target) (hT : T.bigEndian = false) (k : Nat) (hk : 0 < k) :
    (MemTy.int T k).LittleEndian where
  toPlain := MemTy.int_plain T k hk
  le a := by simp only [MemTy.int, hT]; rw [if_neg (by simp), memLE_eq]

theorem MemTy.f32_le (T : Target) (hT : T.bigEndian = false) : (MemTy.f32 T).LittleEndian where
  toPlain := MemTy.f32_plain T
  le := (MemTy.int_le T hT 4 (by omega)).le

theorem MemTy.f64_le (T : Target) (hT : T.bigEndian = false) : (MemTy.f64 T).LittleEndian where
  toPlain := MemTy.f64_plain T
  le := (MemTy.int_le T hT 8 (by omega)).le

/-- What `write_packed_fixed` emits for a non-`NoDataYet` value: its memory image. -/
theorem emits_packed_fixed {α : Type} (M : MemTy α) (hM : M.Plain) (pf : PackedFixed α)
    (v : List α) (h : pf.Denotes M v) (hne : v ≠ []) (hl : v.length * M.size < 2 ^ 64) :
    Emits (fun W _ => write_packed_fixed M pf) (delimited (v.flatMap M.store)) := by
  have hlen := store_all_length hM.toFaithful v
  cases pf with
  | noDataYet => exact absurd h hne
  | owned w =>
    cases h
    have : ((rawBytes M v).take (M.size * v.length)) = v.flatMap M.store := by
      unfold rawBytes
      rw [List.take_of_length_le]
      rw [hlen, Nat.mul_comm]; exact Nat.le_refl _
    simp only [write_packed_fixed, this]
    exact emits_bytes (by omega)
  | borrowed b =>
    have h : b = v.flatMap M.store := h
    subst h
    exact emits_bytes (by omega)

/-- **C13**, partial (little-endian targets, payload below 4 GiB): `write_packed_fixed_with_tag`
writes nothing for an empty sequence, and otherwise the tag, the byte length, and every number in
little-endian order; `read_packed_fixed` reads that block back as a `PackedFixed` standing for the
same numbers, so `into_vec` returns them.
Missing: big-endian targets (false there: `C13_big_endian`). -/
theorem C13_packed_fixed_roundtrip_partial (T : Target) {w : Nat} (M : MemTy (BitVec w))
    (hM : M.LittleEndian) (tag : BitVec 32) (pf : PackedFixed (BitVec w)) (v : List (BitVec w))
    (h : pf.Denotes M v) (hl : v.length * M.size < 2 ^ 32) :
    Emits (fun W _ => write_packed_fixed_with_tag M tag pf)
      (if v = [] then [] else
        varint tag.toNat ++ delimited (v.flatMap fun x => le M.size x.toNat)) ∧
    ∃ pf', ReadsAs T (read_packed_fixed T M) (delimited (v.flatMap fun x => le M.size x.toNat)) pf' ∧
      pf'.Denotes M v ∧ pf'.into_vec M = .ok v := by
  have hstore : (v.flatMap fun x => le M.size x.toNat) = v.flatMap M.store := by
    congr 1; funext x; rw [hM.le]
  rw [hstore]
  constructor
  · have he := pf_is_empty hM.toPlain h
    by_cases hv : v = []
    · rw [if_pos hv]
      refine Emits.congr Emits.nil ?_ rfl
      intro W _
      simp only [write_packed_fixed_with_tag, he, hv, List.isEmpty_nil, if_true]
    · rw [if_neg hv]
      refine Emits.congr (Emits.bind (emits_tag tag)
        (emits_packed_fixed M hM.toPlain pf v h hv (by omega))) ?_ rfl
      intro W _
      simp only [write_packed_fixed_with_tag, he]
      rw [if_neg (by simpa using hv)]
  · have hd : (PackedFixed.borrowed (v.flatMap M.store)).Denotes M v := rfl
    exact ⟨_, reads_packed_fixed M hM.toPlain v hl, hd, pf_into_vec hM.toPlain hd⟩

/-- The same for `write_packed_fixed_size_with_tag`: it writes the first `item_size` numbers. If there are fewer it panics, or, when the
value is owned, reads past the vector (`C30_write_size_with_tag_ub`). -/
theorem C13_size_with_tag_partial {w : Nat} (M : MemTy (BitVec w)) (hM : M.LittleEndian) (tag : BitVec 32)
    (pf : PackedFixed (BitVec w)) (v : List (BitVec w)) (h : pf.Denotes M v) (item_size : Nat) (hl : M.size * item_size < 2 ^ 64) :
    (v = [] ∨ item_size ≤ v.length → Emits (fun W _ => write_packed_fixed_size_with_tag M tag pf item_size)
      (if v = [] then [] else varint tag.toNat ++ delimited ((v.take item_size).flatMap fun x => le M.size x.toNat))) ∧
    (v ≠ [] → v.length < item_size → ∀ b : Bytes, ((write_packed_fixed_size_with_tag M tag pf item_size : SM VecWriter Unit) ⟨b⟩).1 =
      match pf with | .owned _ => .ub | _ => .panic) := by
  have hstore : ∀ v : List (BitVec w), (v.flatMap fun x => le M.size x.toNat) = v.flatMap M.store := by
    intro v; congr 1; funext x; rw [hM.le]
  have hlen := store_all_length hM.toFaithful
  have he := pf_is_empty hM.toPlain h
  have htake : ∀ v : List (BitVec w), (v.flatMap M.store).take (M.size * item_size) = (v.take item_size).flatMap M.store := by
    intro v
    conv => lhs; rw [← List.take_append_drop item_size v, List.flatMap_append]
    by_cases hc : item_size ≤ v.length
    · rw [List.take_left']
      rw [hlen, List.length_take, Nat.min_eq_left hc, Nat.mul_comm]
    · rw [List.drop_eq_nil_of_le (by omega), List.flatMap_nil, List.append_nil, List.take_of_length_le]
      rw [hlen, List.length_take, Nat.min_eq_right (by omega), Nat.mul_comm]
      exact Nat.mul_le_mul_left _ (by omega)
  constructor
  · intro hv
    rw [hstore]
    by_cases hv0 : v = []
    · rw [if_pos hv0]
      refine Emits.congr Emits.nil ?_ rfl
      intro W _
      simp only [write_packed_fixed_size_with_tag, he, hv0, List.isEmpty_nil, if_true]
    · rw [if_neg hv0]
      have hle : item_size ≤ v.length := hv.resolve_left hv0
      have hmul : M.size * item_size ≤ v.length * M.size := by rw [Nat.mul_comm]; exact Nat.mul_le_mul_right _ hle
      have hb : ((v.take item_size).flatMap M.store).length < 2 ^ 64 := by
        rw [hlen, List.length_take, Nat.min_eq_left hle, Nat.mul_comm]; exact hl
      refine Emits.congr (Emits.bind (emits_tag tag) (emits_bytes hb)) ?_ rfl
      intro W _
      simp only [write_packed_fixed_size_with_tag, he]
      rw [if_neg (by simpa using hv0)]
      cases pf with
      | noDataYet => exact absurd h hv0
      | owned u =>
        cases h
        simp only [rawBytes, hlen, htake]
        rw [if_pos hmul]
      | borrowed u =>
        have h : u = v.flatMap M.store := h
        subst h
        simp only [hlen, htake]
        rw [if_pos hmul]
  · intro hv0 hlt b
    have hmul : ¬ M.size * item_size ≤ v.length * M.size := by
      rw [Nat.mul_comm v.length]
      intro hc
      have := Nat.le_of_mul_le_mul_left hc hM.toPlain.pos
      omega
    have ht := (emits_tag tag).vec b
    simp only [write_packed_fixed_size_with_tag, he]
    rw [if_neg (by simpa using hv0), SM.bind_ok ht]
    cases pf with
    | noDataYet => exact absurd h hv0
    | owned u =>
      cases h
      dsimp only
      rw [if_neg (show ¬ M.size * item_size ≤ (rawBytes M v).length by unfold rawBytes; rw [hlen]; exact hmul)]
      rfl
    | borrowed u =>
      have h : u = v.flatMap M.store := h
      subst h
      dsimp only
      rw [if_neg (by rw [hlen]; exact hmul)]
      rfl

/-- On a big-endian machine C13 fails: `PackedFixed::from(vec![1u32])` is written with the bytes in
the wrong order, so that a conforming reader gets `0x01000000`. -/
theorem C13_big_endian (T : Target) (hT : T.bigEndian = true) :
    Emits (fun W _ => write_packed_fixed (MemTy.int T 4) (.owned [1#32])) [4#8, 0#8, 0#8, 0#8, 1#8] ∧
    delimited (le 4 1) = [4#8, 1#8, 0#8, 0#8, 0#8] := by
  have hs : (MemTy.int T 4).store 1#32 = [0#8, 0#8, 0#8, 1#8] := by
    simp only [MemTy.int, hT, if_true]; decide
  have hd : ∀ a b c d : Byte, delimited [a, b, c, d] = [4#8, a, b, c, d] := by
    intro a b c d
    simp [delimited, varint]
  constructor
  · have := emits_packed_fixed (MemTy.int T 4) (MemTy.int_plain T 4 (by omega)) (.owned [1#32])
      [1#32] rfl (by simp) (by simp [MemTy.int])
    rw [List.flatMap_cons, hs, List.flatMap_nil, List.append_nil, hd] at this
    exact this
  · rw [show le 4 1 = [1#8, 0#8, 0#8, 0#8] by decide, hd]

example : ∃ pf : PackedFixed (BitVec (8 * 4)),
    pf = .borrowed [1#8, 0#8, 0xc0#8, 0x7f#8, 0#8, 0#8, 0#8, 0x80#8] ∧
    pf.Denotes (MemTy.f32 Target.release64) [0x7fc00001#32, 0x80000000#32] := ⟨_, rfl, rfl⟩

end QP
