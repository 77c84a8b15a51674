import Verif.Proofs.Scalars
/-! Readers on well-formed encodings. -/

namespace QP
open Spec BytesReader

section
variable {T : Target} {α β : Type}

theorem drop_pre (pre l : Bytes) : (pre ++ l).drop pre.length = l := by simp

theorem ReadsAs.bind {p : Bytes → RM α} {q : α → Bytes → RM β} {x y : Bytes} {a : α} {b : β}
    (hp : ReadsAs T p x a) (hq : ReadsAs T (q a) y b) :
    ReadsAs T (fun bs => do let a ← p bs; q a bs) (x ++ y) b := by
  intro pre suf fin hlen hfin
  have h1 := hp pre (y ++ suf) fin (by simpa using hlen) (by simp at hfin; omega)
  have h2 := hq (pre ++ x) suf fin (by simpa [Nat.add_assoc] using hlen)
    (by simp at hfin ⊢; omega)
  simp only [List.append_assoc, List.length_append] at h1 h2 ⊢
  rw [SM.bind_ok h1, h2]
  simp [Nat.add_assoc]

theorem ReadsAs.pure (a : α) : ReadsAs T (fun _ => (Pure.pure a : RM α)) [] a := by
  intro pre suf fin _ _
  simp [SM.pure_run]

theorem ReadsAs.map {p : Bytes → RM α} {x : Bytes} {a : α} (f : α → β)
    (hp : ReadsAs T p x a) : ReadsAs T (fun bs => do let a ← p bs; Pure.pure (f a)) x (f a) := by
  have := ReadsAs.bind hp (ReadsAs.pure (T := T) (f a)) (q := fun a _ => Pure.pure (f a))
  simpa using this

/-- A reader that is another one under a different name. -/
theorem ReadsAs.congr {p q : Bytes → RM α} {x : Bytes} {a b : α} (hp : ReadsAs T p x a)
    (h : q = p) (hab : a = b) : ReadsAs T q x b := by subst h; subst hab; exact hp

theorem ReadsAs.u8 (b : Byte) : ReadsAs T read_u8 [b] b := by
  intro pre suf fin _ _
  exact read_u8_cons (l := suf) (by simp)

theorem reads_varint64 {n : Nat} (h : n < 2 ^ 64) :
    ReadsAs T read_varint64 (varint n) (BitVec.ofNat 64 n) := by
  intro pre suf fin _ _
  rw [read_varint64_scan, drop_pre, scan_varint _ _ _ (length_varint_64 h)]
  simp [scanOut64, varintVal_varint]

theorem reads_varint32 {n : Nat} (h : n < 2 ^ 64) :
    ReadsAs T read_varint32 (varint n) (BitVec.ofNat 32 n) := by
  intro pre suf fin _ _
  rw [read_varint32_scan, drop_pre, scan_varint _ _ _ (length_varint_64 h)]
  simp [scanOut32, varintVal_varint]

theorem twos64_lt (i : Int) : twos64 i < 2 ^ 64 := by
  unfold twos64; omega

theorem getRange_pre (pre x suf : Bytes) :
    getRange (pre ++ (x ++ suf)) pre.length (pre.length + x.length) = some x := by
  unfold getRange
  rw [if_pos (by simp), drop_pre]
  simp

theorem reads_fixed {M : Type} (read : Bytes → M) (x : Bytes) :
    ReadsAs T (fun b => read_fixed T b x.length read) x (read x) := by
  intro pre suf fin hlen _
  simp only [List.length_append] at hlen
  have h1 : T.usizeAdd pre.length x.length = .ok (pre.length + x.length) := by
    unfold Target.usizeAdd; rw [if_pos (by omega)]
  simp only [read_fixed, SM.bind_run, SM.get_run, SM.lift_run, h1, SM.okOr_run, getRange_pre,
    SM.set_run, SM.pure_run]

theorem usizeAdd_ok {a b : Nat} (h : a + b < 2 ^ T.usizeBits) : T.usizeAdd a b = .ok (a + b) := by
  unfold Target.usizeAdd; rw [if_pos h]

theorem usizeSub_ok {a b : Nat} (h : b ≤ a) : T.usizeSub a b = .ok (a - b) := by
  unfold Target.usizeSub; rw [if_pos h]

/-- `read_len` around a body that reads the payload and leaves the limit in place. -/
theorem readsAs_len {p : Bytes → RM α} {x : Bytes} {a : α}
    (hp : ∀ pre suf : Bytes, (pre ++ (x ++ suf)).length < 2 ^ T.usizeBits →
      ∃ s, p (pre ++ (x ++ suf)) ⟨pre.length, pre.length + x.length⟩
        = (.ok a, ⟨s, pre.length + x.length⟩)) :
    ReadsAs T (fun b => read_len T (p b) x.length) x a := by
  intro pre suf fin hlen hfin
  obtain ⟨s, hs⟩ := hp pre suf hlen
  simp only [List.length_append] at hlen
  simp only [read_len, SM.bind_run, SM.get_run, SM.lift_run, usizeAdd_ok (T := T) (a := pre.length)
    (b := x.length) (by omega), SM.set_run, hs, SM.pure_run]

theorem readsAs_len_varint {p : Bytes → RM α} {x : Bytes} {a : α} (hx : x.length < 2 ^ 32)
    (hp : ∀ pre suf : Bytes, (pre ++ (x ++ suf)).length < 2 ^ T.usizeBits →
      ∃ s, p (pre ++ (x ++ suf)) ⟨pre.length, pre.length + x.length⟩
        = (.ok a, ⟨s, pre.length + x.length⟩)) :
    ReadsAs T (fun b => read_len_varint T b (p b)) (delimited x) a := by
  unfold delimited read_len_varint
  refine ReadsAs.bind (reads_varint32 (n := x.length) (by omega)) ?_ (q := fun len bs => read_len T (p bs) len.toNat)
  have : (BitVec.ofNat 32 x.length).toNat = x.length := by
    rw [BitVec.toNat_ofNat, Nat.mod_eq_of_lt hx]
  rw [this]
  exact readsAs_len hp

theorem ReadsAll.weak {p : Bytes → RM α} {x : Bytes} {a : α} (h : ReadsAll T p x a) :
    ∀ pre suf : Bytes, (pre ++ (x ++ suf)).length < 2 ^ T.usizeBits →
      ∃ s, p (pre ++ (x ++ suf)) ⟨pre.length, pre.length + x.length⟩
        = (.ok a, ⟨s, pre.length + x.length⟩) :=
  fun pre suf hl => ⟨_, h pre suf hl⟩

theorem getSelf_reads (x pre suf : Bytes) :
    getSelf (pre ++ (x ++ suf)) ⟨pre.length, pre.length + x.length⟩
      = (.ok x, ⟨pre.length, pre.length + x.length⟩) := by
  simp only [getSelf, SM.bind_run, SM.get_run, SM.okOr_run, getRange_pre]

/-- A loop that reads a sequence of chunks, each step reading one chunk and folding it in. -/
theorem readsAll_loop {A I : Type} {step : Bytes → A → RM A} {enc : I → Bytes} {upd : A → I → A}
    (items : List I) (hne : ∀ i ∈ items, enc i ≠ [])
    (hstep : ∀ i ∈ items, ∀ acc, ReadsAs T (fun b => step b acc) (enc i) (upd acc i))
    (acc : A) (fuel : Nat) (hf : items.length < fuel) :
    ReadsAll T (fun b => whileNotEof (step b) fuel acc) (items.flatMap enc) (items.foldl upd acc) := by
  intro pre suf hlen
  induction items generalizing pre acc fuel with
  | nil =>
    obtain ⟨fuel, rfl⟩ : ∃ k, fuel = k + 1 := ⟨fuel - 1, by simp at hf; omega⟩
    simp [whileNotEof, SM.bind_run, SM.get_run, is_eof, SM.pure_run]
  | cons i is ih =>
    obtain ⟨fuel, rfl⟩ : ∃ k, fuel = k + 1 := ⟨fuel - 1, by simp at hf; omega⟩
    have hlen0 : (enc i).length ≠ 0 := by simpa using hne i (by simp)
    simp only [List.flatMap_cons, List.foldl_cons]
    have h1 := hstep i (by simp) acc pre (is.flatMap enc ++ suf)
      (pre.length + (enc i ++ is.flatMap enc).length)
      (by simpa using hlen) (by simp)
    have h2 := ih (fun j hj => hne j (by simp [hj])) (fun j hj => hstep j (by simp [hj]))
      (upd acc i) fuel (by simp at hf; omega) (pre ++ enc i)
      (by simpa [Nat.add_assoc] using hlen)
    simp only [List.append_assoc, List.length_append] at h1 h2 ⊢
    have hneof : is_eof ⟨pre.length, pre.length + ((enc i).length + (is.flatMap enc).length)⟩ = false := by
      simp only [is_eof, beq_eq_false_iff_ne]; omega
    simp only [whileNotEof, SM.bind_run, SM.get_run, hneof, Bool.false_eq_true, if_false, h1]
    simp only [Nat.add_assoc] at h2 ⊢
    exact h2

end

end QP
