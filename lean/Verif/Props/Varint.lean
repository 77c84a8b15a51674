import Verif.Proofs.Reader
import Verif.Proofs.Backends
/-!
# C01–C08: varints and scalars
-/

set_option linter.unusedVariables false

namespace QP
open Spec BytesReader

/-! ## C01 -/

/-- A byte string is a canonical base-128 number: not empty, every byte but the last has its high
bit set, the last has it clear, and the last group is zero only for the one-byte string. -/
def Canonical (enc : Bytes) : Prop :=
  ∃ (init : Bytes) (last : Byte), enc = init ++ [last] ∧ (∀ b ∈ init, lastByte b = false) ∧
    lastByte last = true ∧ (init ≠ [] → last ≠ 0)

/-- **C01.** `write_varint(v)` emits a canonical base-128 string of 1 to 10 bytes denoting `v`. -/
theorem C01_write_varint_canonical (v : BitVec 64) :
    ∃ enc, Emits (fun W _ => (write_varint v : SM W Unit)) enc ∧
      Canonical enc ∧ varintVal enc = v.toNat ∧ 1 ≤ enc.length ∧ enc.length ≤ 10 := by
  refine ⟨varint v.toNat, emits_varint v, ?_, varintVal_varint _, length_varint_pos _,
    length_varint_64 v.isLt⟩
  generalize v.toNat = n
  induction n using Nat.strongRecOn with
  | ind n ih =>
    by_cases h : n < 128
    · rw [varint_small h]
      exact ⟨[], _, rfl, by simp, lastByte_ofNat_small h, by simp⟩
    · rw [varint_big h]
      obtain ⟨init, last, e, h1, h2, h3⟩ := ih (n / 128) (by omega)
      refine ⟨BitVec.ofNat 8 (n % 128 + 128) :: init, last, by rw [e]; rfl, ?_, h2, ?_⟩
      · intro b hb
        rcases List.mem_cons.mp hb with rfl | hb
        · exact lastByte_ofNat_big n
        · exact h1 b hb
      · intro _ h0
        subst h0
        by_cases hi : init = []
        · subst hi
          have := varintVal_varint (n / 128)
          rw [e] at this
          simp [varintVal] at this
          omega
        · exact h3 hi rfl

/-- The canonical string of a number is unique, so C01 leaves no freedom. -/
theorem C01_canonical_unique (a b : Bytes) (ha : Canonical a) (hb : Canonical b)
    (h : varintVal a = varintVal b) : a = b := by
  obtain ⟨ia, la, rfl, a1, a2, a3⟩ := ha
  obtain ⟨ib, lb, rfl, b1, b2, b3⟩ := hb
  have key : ∀ (ib : Bytes) (x lb : Byte), lastByte x = true → lastByte lb = true → ib ≠ [] → lb ≠ 0 →
      varintVal [x] ≠ varintVal (ib ++ [lb]) := by
    intro ib x lb hx hlb hib hlb0 heq
    have hpos : ∀ l : Bytes, 0 < varintVal (l ++ [lb]) := by
      intro l
      induction l with
      | nil =>
        simp only [List.nil_append, varintVal, lastByte, decide_eq_true_eq] at *
        have : lb.toNat ≠ 0 := fun h0 => hlb0 (BitVec.eq_of_toNat_eq h0)
        omega
      | cons c l ih => simp only [List.cons_append, varintVal]; omega
    rcases ib with _ | ⟨c, l⟩
    · exact hib rfl
    · have := hpos l
      simp only [List.cons_append, varintVal, lastByte, decide_eq_true_eq] at *
      omega
  induction ia generalizing ib with
  | nil =>
    rcases ib with _ | ⟨c, l⟩
    · simp only [List.nil_append, varintVal, lastByte, decide_eq_true_eq] at *
      have : la.toNat = lb.toNat := by omega
      rw [BitVec.eq_of_toNat_eq this]
    · exact absurd h (key (c :: l) la lb a2 b2 (by simp) (b3 (by simp)))
  | cons x ia ih =>
    rcases ib with _ | ⟨c, l⟩
    · exact absurd h.symm (key (x :: ia) lb la b2 a2 (by simp) (a3 (by simp)))
    · simp only [List.cons_append, varintVal] at h
      have hx := a1 x (by simp)
      have hc := b1 c (by simp)
      simp only [lastByte, decide_eq_false_iff_not] at hx hc
      have hx' := x.isLt
      have hc' := c.isLt
      have hxc : x = c := BitVec.eq_of_toNat_eq (by omega)
      have htail : varintVal (ia ++ [la]) = varintVal (l ++ [lb]) := by omega
      subst hxc
      have := ih (fun b hb => a1 b (by simp [hb])) (fun _ => a3 (by simp)) l
        htail (fun b hb => b1 b (by simp [hb])) (fun _ => b3 (by simp))
      simpa using this

example : Emits (fun W _ => (write_varint 300#64 : SM W Unit)) [0xAC#8, 0x02#8] :=
  (emits_varint 300#64).congr (fun _ _ => rfl) (by
    rw [varint_big (by decide), varint_small (by decide)]; decide)

/-! ## C02 -/

theorem emits_tag (t : BitVec 32) :
    Emits (fun W _ => (write_tag t : SM W Unit)) (varint t.toNat) := by
  have := emits_varint (t.setWidth 64)
  rwa [setWidth_toNat] at this

theorem emits_int32 (v : BitVec 32) :
    Emits (fun W _ => (write_int32 v : SM W Unit)) (varint (twos64 v.toInt)) := by
  have := emits_varint (v.signExtend 64)
  rwa [signExtend_toNat] at this

theorem emits_int64 (v : BitVec 64) :
    Emits (fun W _ => (write_int64 v : SM W Unit)) (varint (twos64 v.toInt)) := by
  have := emits_varint v
  rwa [← twos64_toInt] at this

theorem emits_uint32 (v : BitVec 32) :
    Emits (fun W _ => (write_uint32 v : SM W Unit)) (varint v.toNat) := emits_tag v

theorem emits_uint64 (v : BitVec 64) :
    Emits (fun W _ => (write_uint64 v : SM W Unit)) (varint v.toNat) := emits_varint v

theorem emits_sint32 (v : BitVec 32) :
    Emits (fun W _ => (write_sint32 v : SM W Unit)) (varint ((zigzagExpr32 v).signExtend 64).toNat) :=
  emits_varint _

theorem emits_sint64 (v : BitVec 64) :
    Emits (fun W _ => (write_sint64 v : SM W Unit)) (varint (zigzag v.toInt)) := by
  have := emits_varint (zigzagExpr64 v)
  rwa [zigzagExpr64_toNat] at this

theorem emits_bool (v : Bool) :
    Emits (fun W _ => (write_bool v : SM W Unit)) [if v then 1 else 0] := Emits.u8 _

theorem emits_enum (v : BitVec 32) :
    Emits (fun W _ => (write_enum v : SM W Unit)) (varint (twos64 v.toInt)) := emits_int32 v

theorem emits_bytes {bs : Bytes} (h : bs.length < 2 ^ 64) :
    Emits (fun W _ => (write_bytes bs : SM W Unit)) (delimited bs) :=
  Emits.bind (emits_varint_ofNat h) (Emits.all bs)

/-- The size function `n` tells the length of what `p` emits. -/
def SizeExact (p : WProg) (n : Nat) : Prop := ∃ enc, Emits p enc ∧ enc.length = n

/-- **C02.** Every `sizeof_*` function returns the number of bytes the matching `Writer` method
emits. -/
theorem C02_sizeof_exact :
    (∀ v, SizeExact (fun W _ => (write_varint v : SM W Unit)) (sizeof_varint v)) ∧
    (∀ v, SizeExact (fun W _ => (write_int32 v : SM W Unit)) (sizeof_int32 v)) ∧
    (∀ v, SizeExact (fun W _ => (write_int64 v : SM W Unit)) (sizeof_int64 v)) ∧
    (∀ v, SizeExact (fun W _ => (write_uint32 v : SM W Unit)) (sizeof_uint32 v)) ∧
    (∀ v, SizeExact (fun W _ => (write_uint64 v : SM W Unit)) (sizeof_uint64 v)) ∧
    (∀ v, SizeExact (fun W _ => (write_sint32 v : SM W Unit)) (sizeof_sint32 v)) ∧
    (∀ v, SizeExact (fun W _ => (write_sint64 v : SM W Unit)) (sizeof_sint64 v)) ∧
    (∀ v, SizeExact (fun W _ => (write_bool v : SM W Unit)) (sizeof_bool v)) ∧
    (∀ v, SizeExact (fun W _ => (write_enum v : SM W Unit)) (sizeof_enum v)) ∧
    (∀ bs : Bytes, bs.length < 2 ^ 64 →
      SizeExact (fun W _ => (write_bytes bs : SM W Unit)) (sizeof_len bs.length)) := by
  refine ⟨?_, ?_, ?_, ?_, ?_, ?_, ?_, ?_, ?_, ?_⟩ <;> intro v
  · exact ⟨_, emits_varint v, (sizeof_varint_eq v).symm⟩
  · exact ⟨_, emits_varint _, (sizeof_varint_eq _).symm⟩
  · exact ⟨_, emits_varint _, (sizeof_varint_eq _).symm⟩
  · exact ⟨_, emits_varint _, (sizeof_varint_eq _).symm⟩
  · exact ⟨_, emits_varint _, (sizeof_varint_eq _).symm⟩
  · exact ⟨_, emits_varint _, (sizeof_varint_eq _).symm⟩
  · exact ⟨_, emits_varint _, (sizeof_varint_eq _).symm⟩
  · exact ⟨_, emits_bool v, rfl⟩
  · exact ⟨_, emits_varint _, (sizeof_varint_eq _).symm⟩
  · intro h
    refine ⟨_, emits_bytes h, ?_⟩
    rw [delimited, List.length_append, sizeof_len, sizeof_varint_eq, BitVec.toNat_ofNat,
      Nat.mod_eq_of_lt h]

example : sizeof_int32 (-1#32) = 10 ∧ sizeof_sint32 (-1#32) = 1 ∧ sizeof_len 200 = 202 := by decide

/-! ## C03 -/

/-- **C03.** What `write_varint` emits is read back by `read_varint64` at any offset; likewise by
`read_varint32` when the value fits `u32`, or is a sign-extended `i32`. -/
theorem C03_varint_roundtrip (T : Target) :
    (∀ v : BitVec 64, RoundTrip T (fun W _ => write_varint v) read_varint64 v) ∧
    (∀ v : BitVec 32, RoundTrip T (fun W _ => write_varint (v.setWidth 64)) read_varint32 v) ∧
    (∀ v : BitVec 32, RoundTrip T (fun W _ => write_varint (v.signExtend 64)) read_varint32 v) := by
  refine ⟨fun v => ⟨_, emits_varint v, ?_⟩, fun v => ⟨_, emits_varint _, ?_⟩,
    fun v => ⟨_, emits_varint _, ?_⟩⟩
  · have := reads_varint64 (T := T) v.isLt
    simpa using this
  · have := reads_varint32 (T := T) (v.setWidth 64).isLt
    rw [setWidth_toNat] at *
    simpa using this
  · have := reads_varint32 (T := T) (v.signExtend 64).isLt
    rw [signExtend_toNat] at *
    rwa [twos64_mod32] at this

example : read_varint64 [0xFF#8, 0xAC#8, 0x02#8, 0x07#8] ⟨1, 4⟩ = (.ok 300#64, ⟨3, 4⟩) := by decide

/-! ## C04, C05 -/

theorem scan_done {conts rest : Bytes} {b : Byte} {n : Nat} (hc : ∀ c ∈ conts, lastByte c = false)
    (hb : lastByte b = true) (hn : conts.length < n) :
    scan n (conts ++ b :: rest) = .done (conts ++ [b]) := by
  induction conts generalizing n with
  | nil =>
    obtain ⟨n, rfl⟩ : ∃ k, n = k + 1 := ⟨n - 1, by simp at hn; omega⟩
    simp [scan, hb]
  | cons c cs ih =>
    obtain ⟨n, rfl⟩ : ∃ k, n = k + 1 := ⟨n - 1, by simp at hn; omega⟩
    have := ih (fun x hx => hc x (by simp [hx])) (n := n) (by simp at hn; omega)
    simp [scan, hc c (by simp), this]

theorem scan_tooLong {conts rest : Bytes} {n : Nat} (hc : ∀ c ∈ conts, lastByte c = false)
    (hn : conts.length = n) : scan n (conts ++ rest) = .tooLong n := by
  induction conts generalizing n with
  | nil => subst hn; simp [scan]
  | cons c cs ih =>
    subst hn
    have := ih (fun x hx => hc x (by simp [hx])) rfl
    simp [scan, hc c (by simp), this]

theorem scan_short {conts : Bytes} {n : Nat} (hc : ∀ c ∈ conts, lastByte c = false)
    (hn : conts.length < n) : scan n conts = .short conts.length := by
  induction conts generalizing n with
  | nil =>
    obtain ⟨n, rfl⟩ : ∃ k, n = k + 1 := ⟨n - 1, by simp at hn; omega⟩
    rfl
  | cons c cs ih =>
    obtain ⟨n, rfl⟩ : ∃ k, n = k + 1 := ⟨n - 1, by simp at hn; omega⟩
    have := ih (fun x hx => hc x (by simp [hx])) (n := n) (by simp at hn; omega)
    simp [scan, hc c (by simp), this]

/-- **C04.** `read_varint64` on any buffer and any reader, by what follows the position:
at most nine continuation bytes and a final byte; ten continuation bytes; or fewer than ten
continuation bytes and then the end of the buffer. -/
theorem C04_read_varint64_spec (bytes : Bytes) (r : BytesReader) (conts rest : Bytes)
    (hc : ∀ c ∈ conts, lastByte c = false) :
    (∀ b, bytes.drop r.start = conts ++ b :: rest → conts.length ≤ 9 → lastByte b = true →
      read_varint64 bytes r = (.ok (BitVec.ofNat 64 (varintVal (conts ++ [b]))),
        ⟨r.start + conts.length + 1, r.fin⟩)) ∧
    (bytes.drop r.start = conts ++ rest → conts.length = 10 →
      read_varint64 bytes r = (.err .Varint, ⟨r.start + 10, r.fin⟩)) ∧
    (bytes.drop r.start = conts → conts.length < 10 →
      read_varint64 bytes r = (.err .UnexpectedEndOfBuffer, ⟨r.start + conts.length, r.fin⟩)) := by
  rw [read_varint64_scan]
  refine ⟨fun b h hl hb => ?_, fun h hl => ?_, fun h hl => ?_⟩
  · rw [h, scan_done hc hb (by omega)]
    simp [scanOut64, Nat.add_assoc]
  · rw [h, scan_tooLong hc hl]; rfl
  · rw [h, scan_short hc hl]; rfl

/-- The three cases of C04 are exhaustive: every list of bytes is of one of the three forms. -/
theorem C04_exhaustive (l : Bytes) :
    ∃ conts, (∀ c ∈ conts, lastByte c = false) ∧
      ((∃ b rest, l = conts ++ b :: rest ∧ conts.length ≤ 9 ∧ lastByte b = true) ∨
       (∃ rest, l = conts ++ rest ∧ conts.length = 10) ∨
       (l = conts ∧ conts.length < 10)) := by
  suffices h : ∀ (n : Nat) (l : Bytes), ∃ conts, (∀ c ∈ conts, lastByte c = false) ∧
      ((∃ b rest, l = conts ++ b :: rest ∧ conts.length + 1 ≤ n ∧ lastByte b = true) ∨
       (∃ rest, l = conts ++ rest ∧ conts.length = n) ∨
       (l = conts ∧ conts.length < n)) by
    obtain ⟨c, h1, h2⟩ := h 10 l
    exact ⟨c, h1, by simpa using h2⟩
  intro n
  induction n with
  | zero => exact fun l => ⟨[], by simp, Or.inr (Or.inl ⟨l, by simp⟩)⟩
  | succ n ih =>
    intro l
    rcases l with _ | ⟨b, l⟩
    · exact ⟨[], by simp, Or.inr (Or.inr ⟨rfl, by simp⟩)⟩
    cases hb : lastByte b
    · obtain ⟨c, h1, h2⟩ := ih l
      refine ⟨b :: c, by simpa [hb] using h1, ?_⟩
      rcases h2 with ⟨x, rest, e, hl, hx⟩ | ⟨rest, e, hl⟩ | ⟨e, hl⟩
      · exact Or.inl ⟨x, rest, by simp [e], by simpa using hl, hx⟩
      · exact Or.inr (Or.inl ⟨rest, by simp [e], by simpa using hl⟩)
      · exact Or.inr (Or.inr ⟨by simp [e], by simpa using hl⟩)
    · exact ⟨[], by simp, Or.inl ⟨b, l, by simp, by simp, hb⟩⟩

example : read_varint64 (List.replicate 10 0xFF#8) ⟨0, 10⟩ = (.err .Varint, ⟨10, 10⟩) := by decide
example : read_varint64 (List.replicate 9 0xFF#8 ++ [0x7F#8]) ⟨0, 0⟩
    = (.ok 0xFFFFFFFFFFFFFFFF#64, ⟨10, 0⟩) := by decide

/-- **C05.** On every buffer and reader state, `read_varint32` succeeds, fails (with the same
error) and moves exactly like `read_varint64`; its value is the 64-bit one modulo `2^32`. -/
theorem C05_varint32_truncates (bytes : Bytes) (r : BytesReader) :
    (read_varint32 bytes r).2 = (read_varint64 bytes r).2 ∧
    (∀ v, (read_varint64 bytes r).1 = .ok v → (read_varint32 bytes r).1 = .ok (v.setWidth 32)) ∧
    (∀ e, (read_varint64 bytes r).1 = .err e → (read_varint32 bytes r).1 = .err e) ∧
    ((∃ v, (read_varint64 bytes r).1 = .ok v) ∨ (read_varint64 bytes r).1 = .err .Varint ∨
      (read_varint64 bytes r).1 = .err .UnexpectedEndOfBuffer) := by
  rw [read_varint32_scan, read_varint64_scan]
  cases scan 10 (bytes.drop r.start) with
  | done g =>
    refine ⟨rfl, ?_, by simp [scanOut64], Or.inl ⟨_, rfl⟩⟩
    intro v hv
    simp only [scanOut64, Out.ok.injEq] at hv
    subst hv
    simp only [scanOut32, Out.ok.injEq]
    apply BitVec.eq_of_toNat_eq
    simp only [BitVec.toNat_ofNat, BitVec.toNat_setWidth]
    omega
  | tooLong k => exact ⟨rfl, by simp [scanOut64], by simp [scanOut64, scanOut32], by simp [scanOut64]⟩
  | short k => exact ⟨rfl, by simp [scanOut64], by simp [scanOut64, scanOut32], by simp [scanOut64]⟩

example : read_varint32 [0xFF#8, 0xFF#8, 0xFF#8, 0xFF#8, 0x7F#8] ⟨0, 5⟩
    = (.ok 0xFFFFFFFF#32, ⟨5, 5⟩) := by decide

/-! ## C06 -/

/-- **C06.** Every varint-coded scalar is read back unchanged by the matching method. For enums,
`fromI32` is the generated `From<i32>`; the number is delivered to it unchanged. -/
theorem C06_scalars_roundtrip (T : Target) :
    (∀ v, RoundTrip T (fun W _ => write_int32 v) read_int32 v) ∧
    (∀ v, RoundTrip T (fun W _ => write_int64 v) read_int64 v) ∧
    (∀ v, RoundTrip T (fun W _ => write_uint32 v) read_uint32 v) ∧
    (∀ v, RoundTrip T (fun W _ => write_uint64 v) read_uint64 v) ∧
    (∀ v, RoundTrip T (fun W _ => write_sint32 v) read_sint32 v) ∧
    (∀ v, RoundTrip T (fun W _ => write_sint64 v) read_sint64 v) ∧
    (∀ v, RoundTrip T (fun W _ => write_bool v) read_bool v) ∧
    (∀ (E : Type) (fromI32 : BitVec 32 → E) v,
      RoundTrip T (fun W _ => write_enum v) (read_enum fromI32) (fromI32 v)) := by
  have hi32 : ∀ v : BitVec 32, ReadsAs T read_int32 (varint (twos64 v.toInt)) v := by
    intro v
    have := reads_varint32 (T := T) (twos64_lt v.toInt)
    rwa [twos64_mod32] at this
  refine ⟨fun v => ⟨_, emits_int32 v, hi32 v⟩, fun v => ⟨_, emits_varint v, ?_⟩,
    fun v => ⟨_, emits_uint32 v, ?_⟩, fun v => ⟨_, emits_varint v, ?_⟩,
    fun v => ⟨_, emits_sint32 v, ?_⟩, fun v => ⟨_, emits_varint _, ?_⟩,
    fun v => ⟨_, emits_bool v, ?_⟩, fun E f v => ⟨_, emits_int32 v, ?_⟩⟩
  · have := reads_varint64 (T := T) v.isLt
    rw [BitVec.ofNat_toNat, BitVec.setWidth_eq] at this
    exact this
  · have := reads_varint32 (T := T) (n := v.toNat) (by omega)
    rw [BitVec.ofNat_toNat, BitVec.setWidth_eq] at this
    exact this
  · have := reads_varint64 (T := T) v.isLt
    rw [BitVec.ofNat_toNat, BitVec.setWidth_eq] at this
    exact this
  · have := reads_varint32 (T := T) ((zigzagExpr32 v).signExtend 64).isLt
    have e : BitVec.ofNat 32 ((zigzagExpr32 v).signExtend 64).toNat = zigzagExpr32 v := by
      rw [signExtend_toNat, twos64_mod32]
    rw [e] at this
    have := this.map (fun n : BitVec 32 => (n >>> 1) ^^^ (-(n &&& 1#32)))
    simp only [unzigzag32] at this
    exact this
  · have := reads_varint64 (T := T) (zigzagExpr64 v).isLt
    rw [BitVec.ofNat_toNat, BitVec.setWidth_eq] at this
    have := this.map (fun n : BitVec 64 => (n >>> 1) ^^^ (-(n &&& 1#64)))
    simp only [unzigzag64] at this
    exact this
  · have h1 : varint (if v then 1 else 0) = [if v then 1 else 0] := by
      cases v <;> simp [varint_small]
    have := (reads_varint32 (T := T) (n := if v then 1 else 0) (by split <;> omega)).map
      (fun i => i != 0#32)
    rw [h1] at this
    cases v
    · exact this
    · exact this
  · exact (hi32 v).map f

example : (read_sint32 [0xFF#8, 0xFF#8, 0xFF#8, 0xFF#8, 0x0F#8] ⟨0, 5⟩).1 = .ok (BitVec.intMin 32) := by
  decide

/-! ## C07 -/

/-- **C07** for `sint64`: the varint of the ZigZag image. -/
theorem C07_sint64_zigzag (v : BitVec 64) :
    Emits (fun W _ => (write_sint64 v : SM W Unit)) (varint (zigzag v.toInt)) := emits_sint64 v

theorem zigzag_sint32_lt (v : BitVec 32) : zigzag v.toInt < 2 ^ 32 := by
  have := (zigzagExpr32 v).isLt
  rw [zigzagExpr32_toNat] at this
  exact this

/-- **C07** for `sint32`, partial: true when `-2^30 ≤ v < 2^30`.
Missing: the other half of the range, where it is false, see `C07_sint32_refuted`. -/
theorem C07_sint32_zigzag_partial (v : BitVec 32) (h : -2 ^ 30 ≤ v.toInt) (h' : v.toInt < 2 ^ 30) :
    Emits (fun W _ => (write_sint32 v : SM W Unit)) (varint (zigzag v.toInt)) ∧
      (varint (zigzag v.toInt)).length ≤ 5 := by
  have hz : zigzag v.toInt < 2 ^ 31 := by unfold zigzag; split <;> omega
  refine ⟨?_, length_varint_32 (by omega)⟩
  have := emits_sint32 v
  have e : ((zigzagExpr32 v).signExtend 64).toNat = zigzag v.toInt := by
    rw [BitVec.toNat_signExtend, ← zigzagExpr32_toNat]
    have h2 := zigzagExpr32_toNat v
    rw [← h2] at hz
    rw [show (zigzagExpr32 v).msb = false by rw [BitVec.msb_eq_false_iff_two_mul_lt]; omega]
    simp only [BitVec.toNat_setWidth, Bool.false_eq_true, if_false]
    omega
  rwa [e] at this

/-- **C07** for `sint32`, exactly: outside `[-2^30, 2^30)` the writer emits ten bytes. -/
theorem C07_sint32_ten_bytes (v : BitVec 32) (h : v.toInt < -2 ^ 30 ∨ 2 ^ 30 ≤ v.toInt) :
    ∃ enc, Emits (fun W _ => (write_sint32 v : SM W Unit)) enc ∧ enc.length = 10 := by
  have hz : 2 ^ 31 ≤ zigzag v.toInt := by unfold zigzag; split <;> omega
  refine ⟨_, emits_sint32 v, ?_⟩
  rw [← zigzagExpr32_toNat] at hz
  have hge : 2 ^ 63 ≤ ((zigzagExpr32 v).signExtend 64).toNat := by
    rw [BitVec.toNat_signExtend]
    rw [show (zigzagExpr32 v).msb = true by rw [BitVec.msb_eq_true_iff_two_mul_ge]; omega]
    simp only [BitVec.toNat_setWidth, if_true]
    omega
  have h1 := length_varint_64 ((zigzagExpr32 v).signExtend 64).isLt
  have h2 := length_varint_le ((zigzagExpr32 v).signExtend 64).toNat 8
  omega

/-- **C07** is false for `sint32`: `2^30` takes ten bytes instead of five. -/
theorem C07_sint32_refuted :
    ¬ ∀ v : BitVec 32, Emits (fun W _ => (write_sint32 v : SM W Unit)) (varint (zigzag v.toInt)) := by
  intro h
  obtain ⟨enc, h1, h2⟩ := C07_sint32_ten_bytes (BitVec.ofNat 32 (2 ^ 30)) (by decide)
  have h3 := h (BitVec.ofNat 32 (2 ^ 30))
  have := Emits.unique h1 h3
  subst this
  have := length_varint_32 (zigzag_sint32_lt (BitVec.ofNat 32 (2 ^ 30)))
  omega

/-! ## C08 -/

/-- **C08.** Fixed-width values are written as 4 or 8 little-endian bytes and read back bit for
bit (a `float`/`double` is its bit pattern, so NaN payloads and `-0.0` are included). -/
theorem C08_fixed_roundtrip (T : Target) :
    (∀ v : BitVec 32, Emits (fun W _ => (write_fixed32 v : SM W Unit)) (le 4 v.toNat) ∧
      Emits (fun W _ => (write_sfixed32 v : SM W Unit)) (le 4 v.toNat) ∧
      Emits (fun W _ => (write_float v : SM W Unit)) (le 4 v.toNat) ∧
      ReadsAs T (read_fixed32 T) (le 4 v.toNat) v ∧
      ReadsAs T (read_sfixed32 T) (le 4 v.toNat) v ∧
      ReadsAs T (read_float T) (le 4 v.toNat) v) ∧
    (∀ v : BitVec 64, Emits (fun W _ => (write_fixed64 v : SM W Unit)) (le 8 v.toNat) ∧
      Emits (fun W _ => (write_sfixed64 v : SM W Unit)) (le 8 v.toNat) ∧
      Emits (fun W _ => (write_double v : SM W Unit)) (le 8 v.toNat) ∧
      ReadsAs T (read_fixed64 T) (le 8 v.toNat) v ∧
      ReadsAs T (read_sfixed64 T) (le 8 v.toNat) v ∧
      ReadsAs T (read_double T) (le 8 v.toNat) v) := by
  constructor <;> intro v
  · have h : ReadsAs T (fun b => read_fixed T b 4 leRead32) (le 4 v.toNat) v := by
      have := reads_fixed (T := T) leRead32 (le 4 v.toNat)
      rwa [leRead32_le, length_le] at this
    exact ⟨Emits.op (.u32 v), Emits.op (.i32 v), Emits.op (.f32 v), h, h, h⟩
  · have h : ReadsAs T (fun b => read_fixed T b 8 leRead64) (le 8 v.toNat) v := by
      have := reads_fixed (T := T) leRead64 (le 8 v.toNat)
      rwa [leRead64_le, length_le] at this
    exact ⟨Emits.op (.u64 v), Emits.op (.i64 v), Emits.op (.f64 v), h, h, h⟩

/-- **C08**, short buffer: fewer than `4` (`8`) bytes left is `UnexpectedEndOfBuffer` and the
reader does not move. -/
theorem C08_fixed_short (T : Target) (bytes : Bytes) (r : BytesReader)
    (hT : r.start + 8 < 2 ^ T.usizeBits) :
    (bytes.length < r.start + 4 →
      read_fixed32 T bytes r = (.err .UnexpectedEndOfBuffer, r) ∧
      read_sfixed32 T bytes r = (.err .UnexpectedEndOfBuffer, r) ∧
      read_float T bytes r = (.err .UnexpectedEndOfBuffer, r)) ∧
    (bytes.length < r.start + 8 →
      read_fixed64 T bytes r = (.err .UnexpectedEndOfBuffer, r) ∧
      read_sfixed64 T bytes r = (.err .UnexpectedEndOfBuffer, r) ∧
      read_double T bytes r = (.err .UnexpectedEndOfBuffer, r)) := by
  have key : ∀ (M : Type) (k : Nat) (f : Bytes → M), k ≤ 8 → bytes.length < r.start + k →
      read_fixed T bytes k f r = (.err .UnexpectedEndOfBuffer, r) := by
    intro M k f hk hl
    have hg : getRange bytes r.start (r.start + k) = none := by
      unfold getRange; rw [if_neg (by omega)]
    simp only [read_fixed, SM.bind_run, SM.get_run, SM.lift_run,
      usizeAdd_ok (T := T) (a := r.start) (b := k) (by omega), SM.okOr_run, hg]
  exact ⟨fun h => ⟨key _ _ _ (by omega) h, key _ _ _ (by omega) h, key _ _ _ (by omega) h⟩,
    fun h => ⟨key _ _ _ (by omega) h, key _ _ _ (by omega) h, key _ _ _ (by omega) h⟩⟩

example : read_float Target.debug64 [0x01#8, 0x00#8, 0xC0#8, 0x7F#8] ⟨0, 4⟩
    = (.ok 0x7FC00001#32, ⟨4, 4⟩) := by decide

end QP
