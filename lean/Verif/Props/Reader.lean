import Verif.Proofs.Limits
import Verif.Props.Delimited
/-!
# C15–C21, C31: skipping, locality, limits
-/

set_option linter.unusedVariables false

namespace QP
open Spec BytesReader

/-! ## C15 -/

theorem skip_reads {T : Target} (n : Nat) (b : Bytes) (hb : b.length = n) :
    ReadsAs T (fun _ => skip T n) b () := by
  subst hb
  intro pre suf fin hlen hfin
  simp only [List.length_append] at hlen
  simp only [skip, SM.bind_run, SM.get_run, SM.lift_run]
  rw [usizeSub_ok (by omega)]
  simp only [SM.ite_run]
  rw [if_neg (by omega)]
  simp only [SM.bind_run, SM.lift_run]
  rw [usizeAdd_ok (by omega)]
  simp only [SM.set_run]

theorem skip_inv {T : Target} {n : Nat} {r r' : BytesReader} (hle : r.start ≤ r.fin)
    (hfin : r.fin < 2 ^ T.usizeBits)
    (h : skip T n r = (.ok (), r')) : r.start + n ≤ r.fin ∧ r' = ⟨r.start + n, r.fin⟩ := by
  simp only [skip, SM.bind_run, SM.get_run, SM.lift_run] at h
  rw [usizeSub_ok hle] at h
  simp only [SM.ite_run] at h
  split at h
  · simp [SM.throw_run] at h
  simp only [SM.bind_run, SM.lift_run] at h
  rw [usizeAdd_ok (by omega)] at h
  simp only [SM.set_run, Prod.mk.injEq] at h
  exact ⟨by omega, h.2.symm⟩

/-- **C15**, success: after a tag of wire type `w`, every well-formed payload of that type is
skipped exactly, wherever it stands and whatever follows it, and the limit is left alone. -/
theorem C15_unknown_skipped (T : Target) (tag : BitVec 32) (p : Bytes)
    (h : Payload (tag.toNat % 8) p) : ReadsAs T (fun b => read_unknown T b tag) p () := by
  generalize hw : tag.toNat % 8 = w at h
  cases h with
  | varint hg =>
    have := (wireType_is (k := 0) (by omega)).mpr hw
    simp only [read_unknown]
    simp only [this, if_true]
    exact ReadsAs.map (fun _ => ()) (reads_isVarint64 hg)
  | fixed64 hb =>
    have := (wireType_is (k := 1) (by omega)).mpr hw
    simp only [read_unknown, this]
    exact skip_reads 8 p hb
  | fixed32 hb =>
    have := (wireType_is (k := 5) (by omega)).mpr hw
    simp only [read_unknown, this]
    exact skip_reads 4 p hb
  | delimited hg hv =>
    rename_i g body
    have := (wireType_is (k := 2) (by omega)).mpr hw
    simp only [read_unknown, this]
    intro pre suf fin hlen hfin
    simp only [List.length_append] at hlen hfin
    have hlt : body.length < 2 ^ T.usizeBits := by omega
    let q : BitVec 64 → Bytes → RM Unit := fun v _ =>
      if v.toNat < 2 ^ T.usizeBits then skip T v.toNat else SM.throw .Varint
    have hq : ReadsAs T (q (BitVec.ofNat 64 (varintVal g))) body () := by
      simp only [q, BitVec.toNat_ofNat, hv, if_pos hlt]
      exact skip_reads body.length body rfl
    exact ReadsAs.bind (reads_isVarint64 hg) hq pre suf fin
      (by simp only [List.length_append]; omega) (by simp only [List.length_append]; omega)

/-- **C15**, converse, for a reader whose limit is the end of the buffer: whenever `read_unknown`
succeeds it has consumed exactly one well-formed payload of the announced type. -/
theorem C15_unknown_only_skips (T : Target) (tag : BitVec 32) (bytes : Bytes) (s : Nat)
    (r' : BytesReader) (hs : s ≤ bytes.length) (hb : bytes.length < 2 ^ T.usizeBits)
    (h : read_unknown T bytes tag ⟨s, bytes.length⟩ = (.ok (), r')) :
    ∃ p rest, bytes.drop s = p ++ rest ∧ Payload (tag.toNat % 8) p ∧
      r' = ⟨s + p.length, bytes.length⟩ := by
  have hfix : ∀ n, skip T n ⟨s, bytes.length⟩ = (.ok (), r') →
      ∃ p rest, bytes.drop s = p ++ rest ∧ p.length = n ∧ r' = ⟨s + p.length, bytes.length⟩ := by
    intro n h
    obtain ⟨h1, h2⟩ := skip_inv hs hb h
    simp only at h1 h2
    refine ⟨(bytes.drop s).take n, (bytes.drop s).drop n, by rw [List.take_append_drop], ?_, ?_⟩
    · simp; omega
    · rw [h2]; simp; omega
  simp only [read_unknown] at h
  by_cases h0 : tag.toNat % 8 = 0
  · rw [if_pos ((wireType_is (k := 0) (by omega)).mpr h0)] at h
    obtain ⟨v, r1, h1, h2⟩ := SM.bind_ok_inv h
    simp only [SM.pure_run, Prod.mk.injEq] at h2
    rw [read_varint64_scan] at h1
    cases hsc : scan 10 (bytes.drop s) with
    | done g =>
      obtain ⟨rest, e, c, b, e2, hl, hc, hb⟩ := scan_isVarint (Nat.le_refl _) hsc
      rw [hsc] at h1
      simp only [scanOut64, Prod.mk.injEq] at h1
      exact ⟨g, rest, e, by rw [h0]; exact .varint ⟨c, b, e2, by omega, hc, hb⟩, by rw [← h2.2, ← h1.2]⟩
    | tooLong k => rw [hsc] at h1; simp [scanOut64] at h1
    | short k => rw [hsc] at h1; simp [scanOut64] at h1
  rw [if_neg (fun hx => h0 ((wireType_is (k := 0) (by omega)).mp hx))] at h
  by_cases h1 : tag.toNat % 8 = 1
  · rw [if_pos ((wireType_is (k := 1) (by omega)).mpr h1)] at h
    obtain ⟨p, rest, e, hl, hr⟩ := hfix 8 h
    exact ⟨p, rest, e, by rw [h1]; exact .fixed64 hl, hr⟩
  rw [if_neg (fun hx => h1 ((wireType_is (k := 1) (by omega)).mp hx))] at h
  by_cases h5 : tag.toNat % 8 = 5
  · rw [if_pos ((wireType_is (k := 5) (by omega)).mpr h5)] at h
    obtain ⟨p, rest, e, hl, hr⟩ := hfix 4 h
    exact ⟨p, rest, e, by rw [h5]; exact .fixed32 hl, hr⟩
  rw [if_neg (fun hx => h5 ((wireType_is (k := 5) (by omega)).mp hx))] at h
  by_cases h2 : tag.toNat % 8 = 2
  · rw [if_pos ((wireType_is (k := 2) (by omega)).mpr h2)] at h
    obtain ⟨v, r1, g1, g2⟩ := SM.bind_ok_inv h
    rw [read_varint64_scan] at g1
    cases hsc : scan 10 (bytes.drop s) with
    | done g =>
      obtain ⟨rest, e, c, b, e2, hl, hc, hb'⟩ := scan_isVarint (Nat.le_refl _) hsc
      rw [hsc] at g1
      simp only [scanOut64, Prod.mk.injEq, Out.ok.injEq] at g1
      obtain ⟨rfl, rfl⟩ := g1
      rw [SM.ite_run] at g2
      have hlen := congrArg List.length e
      simp only [List.length_drop, List.length_append] at hlen
      split at g2
      · obtain ⟨q1, q2⟩ := skip_inv (by simp only; omega) hb g2
        simp only [BitVec.toNat_ofNat] at q1 q2
        refine ⟨g ++ rest.take (varintVal g % 2 ^ 64), rest.drop (varintVal g % 2 ^ 64), ?_, ?_, ?_⟩
        · rw [List.append_assoc, List.take_append_drop, e]
        · rw [h2]
          exact .delimited ⟨c, b, e2, by omega, hc, hb'⟩ (by simp; omega)
        · rw [q2]; simp; omega
      · simp [SM.throw_run] at g2
    | tooLong k => rw [hsc] at g1; simp [scanOut64] at g1
    | short k => rw [hsc] at g1; simp [scanOut64] at g1
  rw [if_neg (fun hx => h2 ((wireType_is (k := 2) (by omega)).mp hx))] at h
  rw [SM.ite_run] at h
  split at h <;> simp [SM.throw_run] at h

/-- **C15**, groups and undefined wire types: an error, and the reader does not move. -/
theorem C15_unknown_rejected (T : Target) (tag : BitVec 32) (bytes : Bytes) (r : BytesReader) :
    (tag.toNat % 8 = 3 ∨ tag.toNat % 8 = 4 →
      read_unknown T bytes tag r = (.err .Deprecated, r)) ∧
    (tag.toNat % 8 = 6 ∨ tag.toNat % 8 = 7 →
      read_unknown T bytes tag r = (.err (.UnknownWireType (BitVec.ofNat 8 (tag.toNat % 8))), r)) := by
  have hn : ∀ k, k < 8 → tag.toNat % 8 ≠ k → ¬ ((tag &&& 0x7#32).setWidth 8 = BitVec.ofNat 8 k) :=
    fun k hk hx h => hx ((wireType_is hk).mp h)
  have hw : (tag &&& 0x7#32).setWidth 8 = BitVec.ofNat 8 (tag.toNat % 8) :=
    (wireType_is (by omega)).mpr rfl
  constructor
  · intro h
    simp only [read_unknown]
    rw [if_neg (hn 0 (by omega) (by omega)), if_neg (hn 1 (by omega) (by omega)),
      if_neg (hn 5 (by omega) (by omega)), if_neg (hn 2 (by omega) (by omega)), if_pos]
    · rfl
    · rcases h with h | h
      · exact Or.inl ((wireType_is (k := 3) (by omega)).mpr h)
      · exact Or.inr ((wireType_is (k := 4) (by omega)).mpr h)
  · intro h
    simp only [read_unknown]
    rw [if_neg (hn 0 (by omega) (by omega)), if_neg (hn 1 (by omega) (by omega)),
      if_neg (hn 5 (by omega) (by omega)), if_neg (hn 2 (by omega) (by omega)), if_neg]
    · rw [hw]; rfl
    · rintro (hx | hx)
      · exact hn 3 (by omega) (by omega) hx
      · exact hn 4 (by omega) (by omega) hx

/-- Too short: nothing is skipped. -/
theorem C15_fixed_too_short (T : Target) (tag : BitVec 32) (bytes : Bytes) (r : BytesReader)
    (hle : r.start ≤ r.fin) :
    (tag.toNat % 8 = 1 → r.fin < r.start + 8 → read_unknown T bytes tag r = (.err .Varint, r)) ∧
    (tag.toNat % 8 = 5 → r.fin < r.start + 4 → read_unknown T bytes tag r = (.err .Varint, r)) := by
  have key : ∀ n, r.fin < r.start + n → skip T n r = (.err .Varint, r) := by
    intro n hn
    simp only [skip, SM.bind_run, SM.get_run, SM.lift_run]
    rw [usizeSub_ok hle]
    simp only [SM.ite_run]
    rw [if_pos (by omega)]
    rfl
  constructor <;> intro h hl <;> simp only [read_unknown]
  · rw [(wireType_is (k := 1) (by omega)).mpr h]
    exact key 8 hl
  · rw [(wireType_is (k := 5) (by omega)).mpr h]
    exact key 4 hl

example : Payload ((18#32 : BitVec 32).toNat % 8) [0x83#8, 0x00#8, 9#8, 9#8, 9#8] :=
  Payload.delimited (g := [0x83#8, 0x00#8]) (body := [9#8, 9#8, 9#8])
    ⟨[0x83#8], 0#8, rfl, by decide, by decide, by decide⟩ (by decide)

/-! ## C16 -/

theorem good_string {T : Target} : Good T (read_string T) := by
  refine Good.read_len_varint (Good.entry ?_)
  exact Good.bind Good.getSelf (fun x => Good.ite (Good.pure x) (Good.throw _))

theorem good_bytes {T : Target} : Good T (read_bytes T) := Good.read_len_varint (Good.entry Good.getSelf)

theorem good_packed {T : Target} {M : Type} {read : Bytes → RM M} (h : Good T read) (fuel : Nat) :
    Good T (fun b => read_packed T fuel b (read b)) := by
  refine Good.read_len_varint (Good.entry ?_)
  exact Good.bind (Good.whileNotEof (step := fun b (acc : List M) => do let m ← read b; pure (m :: acc))
    (fun a => Good.bind h (fun m => Good.pure (m :: a))) fuel []) (fun v => Good.pure v.reverse)

theorem good_map {T : Target} {K V : Type} {rk : Bytes → RM K} {rv : Bytes → RM V} (hk : Good T rk)
    (hv : Good T rv) (fuel : Nat) (k0 : K) (v0 : V) :
    Good T (fun b => read_map T fuel b k0 v0 (rk b) (rv b)) := by
  refine Good.read_len_varint (Good.entry ?_)
  refine Good.whileNotEof (step := fun b (kv : K × V) => do
      let t ← read_u8 b
      let n := t >>> 3
      if n = 1#8 then do
        let k ← rk b
        pure (k, kv.2)
      else if n = 2#8 then do
        let v ← rv b
        pure (kv.1, v)
      else SM.throw (.Map n)) (fun a => ?_) fuel (k0, v0)
  exact Good.bind Good.read_u8 (fun t => Good.ite (Good.bind hk (fun k => Good.pure (k, a.2)))
    (Good.ite (Good.bind hv (fun v => Good.pure (a.1, v))) (Good.throw _)))

/-- **C16.** With overflow checks, every read operation is orderly (never moves backwards, keeps the
limit on success, keeps the indices in range) and local (does the same whatever bytes precede).
Nested readers, element readers and map readers may be any operations with these properties, and
the properties are closed under sequencing, so they hold of every decoder built from them. -/
theorem C16_reads_orderly_local (T : Target) (hT : T.overflowChecks = true) :
    (Good T read_u8 ∧ Good T next_tag ∧ Good T read_varint32 ∧ Good T read_varint64) ∧
    (Good T read_int32 ∧ Good T read_int64 ∧ Good T read_uint32 ∧ Good T read_uint64 ∧
      Good T read_sint32 ∧ Good T read_sint64 ∧ Good T read_bool ∧
      ∀ (E : Type) (f : BitVec 32 → E), Good T (read_enum f)) ∧
    (Good T (read_fixed32 T) ∧ Good T (read_fixed64 T) ∧ Good T (read_sfixed32 T) ∧
      Good T (read_sfixed64 T) ∧ Good T (read_float T) ∧ Good T (read_double T)) ∧
    (Good T (read_bytes T) ∧ Good T (read_string T) ∧
      (∀ (α : Type) (M : MemTy α), Good T (read_packed_fixed T M)) ∧
      ∀ tag, Good T (fun b => read_unknown T b tag)) ∧
    (∀ (M : Type) (p : Bytes → RM M), Good T p →
      Good T (fun b => read_message T b (p b)) ∧
      ∀ fuel, Good T (fun b => read_packed T fuel b (p b))) ∧
    (∀ (K V : Type) (k0 : K) (v0 : V) (rk : Bytes → RM K) (rv : Bytes → RM V) (fuel : Nat),
      Good T rk → Good T rv → Good T (fun b => read_map T fuel b k0 v0 (rk b) (rv b))) ∧
    (∀ (α β : Type) (p : Bytes → RM α) (q : α → Bytes → RM β), Good T p → (∀ a, Good T (q a)) →
      Good T (fun b => do let a ← p b; q a b)) := by
  have h32 : Good T read_varint32 := Good.read_varint32
  have h64 : Good T read_varint64 := Good.read_varint64
  refine ⟨⟨Good.read_u8, h32, h32, h64⟩,
    ⟨h32, h64, h32, h64, Good.bind h32 (fun n => Good.pure _), Good.bind h64 (fun n => Good.pure _),
      Good.bind h32 (fun n => Good.pure _), fun E f => Good.bind h32 (fun n => Good.pure _)⟩,
    ⟨Good.read_fixed (by omega) _, Good.read_fixed (by omega) _, Good.read_fixed (by omega) _,
      Good.read_fixed (by omega) _, Good.read_fixed (by omega) _, Good.read_fixed (by omega) _⟩,
    ⟨good_bytes, good_string, fun α M => Good.read_packed_fixed hT M,
      fun tag => Good.read_unknown hT tag⟩,
    fun M p hp => ⟨Good.read_len_varint hp.entry, fun fuel => good_packed hp fuel⟩,
    fun K V k0 v0 rk rv fuel hk hv => good_map hk hv fuel k0 v0,
    fun α β p q hp hq => Good.bind hp hq⟩

/-- **C16**, spelled out: for a local operation only the bytes from the position on, and the distance
to the limit, matter. -/
theorem C16_suffix_only (T : Target) {α : Type} (p : Bytes → RM α) (hp : Local T p)
    (pre pre' rest : Bytes) (lim : Nat) (hlim : lim ≤ rest.length + 2 ^ 32)
    (h : Roomy T (pre ++ rest)) (h' : Roomy T (pre' ++ rest)) :
    ∃ (o : Out α) (d e : Nat),
      p (pre ++ rest) ⟨pre.length, pre.length + lim⟩ = (o, ⟨pre.length + d, pre.length + e⟩) ∧
      p (pre' ++ rest) ⟨pre'.length, pre'.length + lim⟩ = (o, ⟨pre'.length + d, pre'.length + e⟩) := by
  have h1 := hp pre rest ⟨0, lim⟩ h ⟨by simp, hlim⟩
  have h2 := hp pre' rest ⟨0, lim⟩ h' ⟨by simp, hlim⟩
  exact ⟨_, _, _, h1, h2⟩

example : Roomy Target.debug64 [1#8, 2#8] := roomy64 _ rfl _ (by decide)

/-! ## C17 -/

/-- The operation always returns `Ok` with the position inside the buffer, or `Err`. -/
def ScalarSafe (T : Target) {α : Type} (p : Bytes → RM α) : Prop :=
  ∀ bytes r, Roomy T bytes → r.InRange bytes →
    (∃ a r', p bytes r = (.ok a, r') ∧ r'.start ≤ bytes.length) ∨ (∃ e r', p bytes r = (.err e, r'))

theorem ScalarSafe.map {T : Target} {α β : Type} {p : Bytes → RM α} (h : ScalarSafe T p)
    (f : α → β) : ScalarSafe T (fun b => do let a ← p b; pure (f a)) := by
  intro bytes r hR hr
  rcases h bytes r hR hr with ⟨a, r', h1, h2⟩ | ⟨e, r', h1⟩
  · exact Or.inl ⟨f a, r', (SM.bind_ok h1).trans rfl, h2⟩
  · exact Or.inr ⟨e, r', SM.bind_err h1⟩

theorem scalarSafe_varint32 {T : Target} : ScalarSafe T read_varint32 := by
  intro bytes r _ _
  rcases h : read_varint32 bytes r with ⟨o, r'⟩
  have h' := h
  rw [read_varint32_scan] at h'
  cases hs : scan 10 (bytes.drop r.start) <;> rw [hs] at h' <;>
    obtain ⟨rfl, rfl⟩ := Prod.mk.injEq _ _ _ _ ▸ h'
  · exact Or.inl ⟨_, _, rfl, (read_varint32_in h).2.1⟩
  · exact Or.inr ⟨_, _, rfl⟩
  · exact Or.inr ⟨_, _, rfl⟩

theorem scalarSafe_varint64 {T : Target} : ScalarSafe T read_varint64 := by
  intro bytes r _ _
  rcases h : read_varint64 bytes r with ⟨o, r'⟩
  have h' := h
  rw [read_varint64_scan] at h'
  cases hs : scan 10 (bytes.drop r.start) <;> rw [hs] at h' <;>
    obtain ⟨rfl, rfl⟩ := Prod.mk.injEq _ _ _ _ ▸ h'
  · exact Or.inl ⟨_, _, rfl, (read_varint64_in h).2.1⟩
  · exact Or.inr ⟨_, _, rfl⟩
  · exact Or.inr ⟨_, _, rfl⟩

theorem getRange_some {bytes x : Bytes} {a b : Nat} (h : getRange bytes a b = some x) :
    a ≤ b ∧ b ≤ bytes.length ∧ x = (bytes.drop a).take (b - a) := by
  unfold getRange at h
  split at h
  · rename_i hc
    exact ⟨hc.1, hc.2, by simpa using h.symm⟩
  · simp at h

theorem scalarSafe_fixed {T : Target} {α : Type} {n : Nat} (hn : n ≤ 2 ^ 32) (f : Bytes → α) :
    ScalarSafe T (fun b => read_fixed T b n f) := by
  intro bytes r hR hr
  unfold InRange Roomy at *
  simp only [read_fixed, SM.bind_run, SM.get_run, SM.lift_run,
    usizeAdd_ok (T := T) (a := r.start) (b := n) (by omega), SM.okOr_run]
  cases hg : getRange bytes r.start (r.start + n) with
  | none => exact Or.inr ⟨_, _, rfl⟩
  | some x => exact Or.inl ⟨_, _, rfl, (getRange_some hg).2.1⟩

/-- A length-prefixed read of a body that inspects the delimited slice. -/
theorem scalarSafe_delim {T : Target} {α : Type} (f : Bytes → RM α)
    (hf : ∀ x, (∃ a, f x = pure a) ∨ (∃ e, f x = SM.throw e)) :
    ScalarSafe T (fun b => read_len_varint T b (do
      let x ← getSelf b
      f x)) := by
  intro bytes r hR hr
  rcases hv : read_varint32 bytes r with ⟨o, r1⟩
  rcases scalarSafe_varint32 (T := T) bytes r hR hr with ⟨a, r', h1, h2⟩ | ⟨e, r', h1⟩
  · rw [hv, Prod.mk.injEq] at h1
    obtain ⟨rfl, rfl⟩ := h1
    have hlt := a.isLt
    have hR' := hR
    unfold Roomy at hR'
    simp only [read_len_varint, read_len, SM.bind_run, hv, SM.get_run, SM.lift_run,
      usizeAdd_ok (T := T) (a := r1.start) (b := a.toNat) (by omega), SM.set_run, getSelf, SM.okOr_run]
    cases hg : getRange bytes r1.start (r1.start + a.toNat) with
    | none => exact Or.inr ⟨_, _, rfl⟩
    | some x =>
      simp only
      rcases hf x with ⟨y, hy⟩ | ⟨e, hy⟩ <;> rw [hy]
      case inr => exact Or.inr ⟨_, _, rfl⟩
      case inl => exact Or.inl ⟨_, _, rfl, (getRange_some hg).2.1⟩
  · rw [hv, Prod.mk.injEq] at h1
    obtain ⟨rfl, rfl⟩ := h1
    exact Or.inr ⟨e, r1, SM.bind_err hv⟩

theorem scalarSafe_bytes {T : Target} : ScalarSafe T (read_bytes T) := by
  have h := scalarSafe_delim (T := T) (α := Bytes) (fun x => pure x) (fun x => Or.inl ⟨x, rfl⟩)
  intro bytes r hR hr
  have := h bytes r hR hr
  simp only at this
  rw [bind_pure] at this
  exact this

theorem scalarSafe_string {T : Target} : ScalarSafe T (read_string T) :=
  scalarSafe_delim (T := T) (fun x => if utf8Ok x then pure x else SM.throw .Utf8) (fun x => by
    by_cases h : utf8Ok x = true
    · exact Or.inl ⟨x, by simp only [h, if_true]⟩
    · exact Or.inr ⟨.Utf8, by simp only [h]; rfl⟩)

theorem scalarSafe_u8 {T : Target} : ScalarSafe T read_u8 := by
  intro bytes r hR hr
  rcases hd : bytes.drop r.start with _ | ⟨b, l⟩
  · exact Or.inr ⟨_, _, read_u8_nil hd⟩
  · refine Or.inl ⟨_, _, read_u8_cons hd, ?_⟩
    have := congrArg List.length hd
    simp at this
    simp only; omega

/-- **C17.** On a 64 bit target (`Roomy`), in any profile and for every buffer and reader state,
the scalar reads never panic and never touch anything outside the buffer; after `Ok` the position
is inside it. -/
theorem C17_scalar_reads_safe (T : Target) :
    (ScalarSafe T read_u8 ∧ ScalarSafe T next_tag ∧ ScalarSafe T read_varint32 ∧
      ScalarSafe T read_varint64) ∧
    (ScalarSafe T read_int32 ∧ ScalarSafe T read_int64 ∧ ScalarSafe T read_uint32 ∧
      ScalarSafe T read_uint64 ∧ ScalarSafe T read_sint32 ∧ ScalarSafe T read_sint64 ∧
      ScalarSafe T read_bool ∧ ∀ (E : Type) (f : BitVec 32 → E), ScalarSafe T (read_enum f)) ∧
    (ScalarSafe T (read_fixed32 T) ∧ ScalarSafe T (read_fixed64 T) ∧
      ScalarSafe T (read_sfixed32 T) ∧ ScalarSafe T (read_sfixed64 T) ∧
      ScalarSafe T (read_float T) ∧ ScalarSafe T (read_double T)) ∧
    ScalarSafe T (read_bytes T) ∧ ScalarSafe T (read_string T) :=
  ⟨⟨scalarSafe_u8, scalarSafe_varint32, scalarSafe_varint32, scalarSafe_varint64⟩,
   ⟨scalarSafe_varint32, scalarSafe_varint64, scalarSafe_varint32, scalarSafe_varint64,
    scalarSafe_varint32.map _, scalarSafe_varint64.map _, scalarSafe_varint32.map _,
    fun E f => scalarSafe_varint32.map f⟩,
   ⟨scalarSafe_fixed (by omega) _, scalarSafe_fixed (by omega) _, scalarSafe_fixed (by omega) _,
    scalarSafe_fixed (by omega) _, scalarSafe_fixed (by omega) _, scalarSafe_fixed (by omega) _⟩,
   scalarSafe_bytes, scalarSafe_string⟩

/-- On a 32 bit target with overflow checks a five-byte input makes `read_bytes` panic: the limit
`start + len` does not fit in `usize`. -/
theorem C17_panics_on_32_bit :
    read_bytes ⟨32, true, false⟩ [0xff#8, 0xff#8, 0xff#8, 0xff#8, 0x0f#8] ⟨0, 5⟩
      = (.panic, ⟨5, 5⟩) := by decide

/-! ## C18 -/

/-- **C18.** When a length-delimited read succeeds, the limit is what it was, and the position is
exactly the end of the declared length — for every nested decoder that itself keeps the limit on
success (all the reader's own operations do: `C18_own_operations`). -/
theorem C18_nested_restores (T : Target) {α : Type} (p : Bytes → RM α) (hp : KeepsLimit p)
    (bytes : Bytes) (r r' : BytesReader) (a : α) :
    (read_message T bytes (p bytes) r = (.ok a, r') →
      ∃ len r1, read_varint32 bytes r = (.ok len, r1) ∧ r'.fin = r.fin ∧
        T.usizeAdd r1.start len.toNat = .ok r'.start) ∧
    (∀ len, read_message_by_len T (p bytes) len r = (.ok a, r') →
      r'.fin = r.fin ∧ T.usizeAdd r.start len = .ok r'.start) := by
  constructor
  · intro h
    obtain ⟨len, r1, h1, h2⟩ := SM.bind_ok_inv h
    obtain ⟨g1, g2, _⟩ := read_len_stops hp h2
    exact ⟨len, r1, h1, by rw [g2, (read_varint32_in h1).2.2], g1⟩
  · intro len h
    obtain ⟨g1, g2, _⟩ := read_len_stops hp h
    exact ⟨g2, g1⟩

/-- **C18**, for the built-in delimited reads. -/
theorem C18_own_operations (T : Target) {M K V : Type} (read : Bytes → RM M) (rk : Bytes → RM K)
    (rv : Bytes → RM V) (k0 : K) (v0 : V) (fuel : Nat) (h : KeepsLimit read) (hk : KeepsLimit rk)
    (hv : KeepsLimit rv) (bytes : Bytes) (r r' : BytesReader) :
    let Ends : Prop := ∃ len r1, read_varint32 bytes r = (.ok len, r1) ∧ r'.fin = r.fin ∧
        T.usizeAdd r1.start len.toNat = .ok r'.start
    (∀ x, read_bytes T bytes r = (.ok x, r') → Ends) ∧
    (∀ x, read_string T bytes r = (.ok x, r') → Ends) ∧
    (∀ x, read_packed T fuel bytes (read bytes) r = (.ok x, r') → Ends) ∧
    (∀ x, read_map T fuel bytes k0 v0 (rk bytes) (rv bytes) r = (.ok x, r') → Ends) := by
  intro Ends
  refine ⟨fun x hx => ?_, fun x hx => ?_, fun x hx => ?_, fun x hx => ?_⟩
  · exact (C18_nested_restores T getSelf KeepsLimit.getSelf bytes r r' x).1 hx
  · exact (C18_nested_restores T (fun b => do
      let x ← getSelf b
      if utf8Ok x then pure x else SM.throw .Utf8)
      (KeepsLimit.bind KeepsLimit.getSelf (fun x => KeepsLimit.ite (KeepsLimit.pure x) (KeepsLimit.throw _)))
      bytes r r' x).1 hx
  · exact (C18_nested_restores T (fun b => do
      let v ← whileNotEof (fun (acc : List M) => do let m ← read b; pure (m :: acc)) fuel []
      pure v.reverse)
      (KeepsLimit.bind (KeepsLimit.whileNotEof (step := fun b (acc : List M) => do let m ← read b; pure (m :: acc))
        (fun a => KeepsLimit.bind h (fun m => KeepsLimit.pure (m :: a))) fuel []) (fun v => KeepsLimit.pure _))
      bytes r r' x).1 hx
  · exact (C18_nested_restores T (fun b => whileNotEof (fun (kv : K × V) => do
      let t ← read_u8 b
      let n := t >>> 3
      if n = 1#8 then do
        let k ← rk b
        pure (k, kv.2)
      else if n = 2#8 then do
        let v ← rv b
        pure (kv.1, v)
      else SM.throw (.Map n)) fuel (k0, v0))
      (KeepsLimit.whileNotEof (step := fun b (kv : K × V) => do
        let t ← read_u8 b
        let n := t >>> 3
        if n = 1#8 then do
          let k ← rk b
          pure (k, kv.2)
        else if n = 2#8 then do
          let v ← rv b
          pure (kv.1, v)
        else SM.throw (.Map n))
        (fun a => KeepsLimit.bind KeepsLimit.read_u8 (fun t => KeepsLimit.ite
          (KeepsLimit.bind hk (fun k => KeepsLimit.pure _))
          (KeepsLimit.ite (KeepsLimit.bind hv (fun v => KeepsLimit.pure _)) (KeepsLimit.throw _)))) fuel (k0, v0))
      bytes r r' x).1 hx

/-- A decoder that swallows an error: `let _ = r.read_bytes(bytes); Ok(())`. -/
def swallow (T : Target) (bytes : Bytes) : RM Unit := fun r =>
  (.ok (), (read_bytes T bytes r).2)

/-- For such decoders C18 fails: the nested message declares two bytes at position 1, but the
position afterwards is 7 instead of 3. -/
theorem C18_swallowing_decoder :
    read_message Target.debug64 [2#8, 5#8, 0#8, 0#8] (swallow Target.debug64 [2#8, 5#8, 0#8, 0#8]) ⟨0, 4⟩
      = (.ok (), ⟨7, 4⟩) := by decide

example : KeepsLimit (fun b => read_unknown Target.debug64 b 8#32) := KeepsLimit.read_unknown _

/-! ## C19 -/

/-- **C19** is false: after a failed `read_bytes` the limit is not restored. -/
theorem C19_limit_lost :
    read_bytes Target.debug64 [5#8, 1#8] ⟨0, 2⟩ = (.err .UnexpectedEndOfBuffer, ⟨1, 6⟩) := by decide

/-- **C19**, partial: the limit is unchanged when it is the length prefix itself that cannot be
read. Missing: errors inside the delimited part, where it is false (`C19_limit_lost`). -/
theorem C19_prefix_error_partial (T : Target) {α : Type} (p : RM α) (bytes : Bytes)
    (r r1 : BytesReader) (e : Error) (h : read_varint32 bytes r = (.err e, r1)) :
    read_len_varint T bytes p r = (.err e, r1) ∧ r1.fin = r.fin := by
  refine ⟨by rw [read_len_varint, SM.bind_err h], ?_⟩
  rw [read_varint32_scan] at h
  cases hs : scan 10 (bytes.drop r.start) <;> rw [hs] at h <;>
    obtain ⟨_, rfl⟩ := Prod.mk.injEq _ _ _ _ ▸ h <;> rfl

/-- What happens instead: the reader is left exactly where the nested decoder stopped, with the
limit the nested decoder had. -/
theorem C19_error_state (T : Target) {α : Type} (p : RM α) (bytes : Bytes) (r r1 r2 : BytesReader)
    (len : BitVec 32) (fin : Nat) (e : Error) (h : read_varint32 bytes r = (.ok len, r1))
    (hf : T.usizeAdd r1.start len.toNat = .ok fin) (hp : p ⟨r1.start, fin⟩ = (.err e, r2)) :
    read_len_varint T bytes p r = (.err e, r2) := by
  simp only [read_len_varint, read_len, SM.bind_run, h, SM.get_run, SM.lift_run, hf, SM.set_run, hp]

example : read_varint32 [0x80#8] ⟨0, 1⟩ = (.err .UnexpectedEndOfBuffer, ⟨1, 1⟩) := by decide

/-! ## C20 -/

/-- **C20** is false: inside a message of declared length 2, a string field reads three bytes, the
last two of which lie beyond the message. -/
theorem C20_reads_beyond_parent :
    let bytes : Bytes := [2#8, 3#8, 0x61#8, 0x62#8, 0x63#8]
    read_message Target.debug64 bytes (read_string Target.debug64 bytes) ⟨0, 5⟩
      = (.ok [0x61#8, 0x62#8, 0x63#8], ⟨3, 5⟩) := by decide

/-- **C20**, partial: the reads that do test the limit. A `PackedFixed` and a skipped unknown field
of a fixed or delimited type end at or before the limit. Missing: varints, fixed values, strings,
bytes, nested messages, which only test the end of the buffer (`C20_reads_beyond_parent`). -/
theorem C20_limit_tested_partial (T : Target) (hT : T.overflowChecks = true) {α : Type}
    (M : MemTy α) (bytes : Bytes) (r r' : BytesReader) (hfin : r.fin < 2 ^ T.usizeBits) :
    (∀ pf, read_packed_fixed T M bytes r = (.ok pf, r') → r'.start ≤ r.fin) ∧
    (∀ tag, tag.toNat % 8 ≠ 0 → read_unknown T bytes tag r = (.ok (), r') → r'.start ≤ r.fin) := by
  have hsub : ∀ (a b x : Nat), T.usizeSub a b = .ok x → b ≤ a ∧ x = a - b := by
    intro a b x h
    unfold Target.usizeSub at h
    by_cases hle : b ≤ a
    · rw [if_pos hle] at h; simp at h; omega
    · rw [if_neg hle, if_pos hT] at h; simp at h
  have hskip : ∀ n (r r' : BytesReader), r.fin < 2 ^ T.usizeBits → skip T n r = (.ok (), r') →
      r'.start ≤ r.fin := by
    intro n r r' hf h
    have hle : r.start ≤ r.fin := by
      rcases Nat.lt_or_ge r.fin r.start with hlt | hge
      · exfalso
        simp only [skip, SM.bind_run, SM.get_run, SM.lift_run] at h
        cases hu : T.usizeSub r.fin r.start with
        | ok x => have := (hsub _ _ _ hu).1; omega
        | _ => rw [hu] at h; simp at h
      · exact hge
    obtain ⟨h1, h2⟩ := skip_inv hle hf h
    rw [h2]; exact h1
  constructor
  · intro pf h
    obtain ⟨len, r1, rem, stop, x, h1, h2, h3, _, _, _, _, h4, _⟩ := read_packed_fixed_inv h
    obtain ⟨g1, g2⟩ := hsub _ _ _ h2
    have hf := (read_varint32_in h1).2.2
    rw [usizeAdd_ok (by omega)] at h4
    simp only [Out.ok.injEq] at h4
    omega
  · intro tag hne h
    simp only [read_unknown] at h
    rw [if_neg (fun hx => hne ((wireType_is (k := 0) (by omega)).mp hx))] at h
    split at h
    · exact hskip _ _ _ hfin h
    split at h
    · exact hskip _ _ _ hfin h
    split at h
    · obtain ⟨v, r1, g1, g2⟩ := SM.bind_ok_inv h
      rw [SM.ite_run] at g2
      have hf := (read_varint64_in g1).2.2
      split at g2
      · have := hskip _ _ _ (by omega) g2; omega
      · simp [SM.throw_run] at g2
    · rw [SM.ite_run] at h
      split at h <;> simp [SM.throw_run] at h

/-- **C20**, partial: when nothing follows the message in the buffer (the limit is not before the
end of the buffer), no successful scalar read goes past the limit. -/
theorem C20_last_message_partial (T : Target) {α : Type} (p : Bytes → RM α) (hp : ScalarSafe T p)
    (bytes : Bytes) (r r' : BytesReader) (a : α) (hR : Roomy T bytes) (hr : r.InRange bytes)
    (hfin : bytes.length ≤ r.fin) (h : p bytes r = (.ok a, r')) : r'.start ≤ r.fin := by
  rcases hp bytes r hR hr with ⟨a', r'', h1, h2⟩ | ⟨e, r'', h1⟩
  · rw [h, Prod.mk.injEq] at h1
    rw [h1.2]; omega
  · rw [h, Prod.mk.injEq] at h1; simp at h1

/-! ## C21 -/

/-- A loop of reads that stay inside the buffer cannot reach a limit beyond the buffer. -/
theorem loop_not_past_end {A : Type} {step : Bytes → A → RM A} {bytes : Bytes}
    (hs : ∀ acc r acc' r', step bytes acc r = (.ok acc', r') → r'.start ≤ bytes.length ∧ r'.fin = r.fin)
    (fuel : Nat) (acc a : A) (r r' : BytesReader) (hr : r.start ≤ bytes.length)
    (hfin : bytes.length < r.fin) : whileNotEof (step bytes) fuel acc r ≠ (.ok a, r') := by
  induction fuel generalizing acc r with
  | zero => simp [whileNotEof, SM.lift_run]
  | succ n ih =>
    intro h
    have he : r.is_eof = false := by
      simp only [is_eof, beq_eq_false_iff_ne]; omega
    simp only [whileNotEof, SM.bind_run, SM.get_run, he, SM.ite_run, Bool.false_eq_true, if_false] at h
    rcases hst : step bytes acc r with ⟨o, r1⟩
    rw [hst] at h
    cases o with
    | ok acc' =>
      obtain ⟨h1, h2⟩ := hs _ _ _ _ hst
      exact ih acc' r1 h1 (by omega) h
    | _ => simp at h

/-- **C21**, partial: strings, byte strings, packed fields of scalars and (for a reader whose limit
is the end of the buffer) packed fixed fields whose declared length exceeds the bytes present are
rejected: with `UnexpectedEndOfBuffer`, or for packed scalars at least not accepted.
Missing: messages, where it is false (`C21_overlong_message_accepted`). -/
theorem C21_overlong_rejected_partial (T : Target) (bytes : Bytes) (s lim : Nat) (g rest : Bytes)
    (hR : Roomy T bytes) (hg : IsVarint g) (hd : bytes.drop s = g ++ rest)
    (hlong : rest.length < varintVal g % 2 ^ 32) :
    (∃ r', read_bytes T bytes ⟨s, lim⟩ = (.err .UnexpectedEndOfBuffer, r')) ∧
    (∃ r', read_string T bytes ⟨s, lim⟩ = (.err .UnexpectedEndOfBuffer, r')) ∧
    (∀ (α : Type) (M : MemTy α), ∃ r', read_packed_fixed T M bytes ⟨s, bytes.length⟩
      = (.err .UnexpectedEndOfBuffer, r')) ∧
    (∀ (M : Type) (read : Bytes → RM M) (fuel : Nat) (v : List M) (r' : BytesReader),
      ScalarSafe T read → Good T read →
      read_packed T fuel bytes (read bytes) ⟨s, lim⟩ ≠ (.ok v, r')) := by
  have hlen := congrArg List.length hd
  simp only [List.length_drop, List.length_append] at hlen
  have hgl : 0 < g.length := by
    obtain ⟨c, b, rfl, _⟩ := hg; simp
  have hv : ∀ lim, read_varint32 bytes ⟨s, lim⟩
      = (.ok (BitVec.ofNat 32 (varintVal g)), ⟨s + g.length, lim⟩) := by
    intro lim
    rw [read_varint32_scan]
    simp only
    rw [hd, scan_of_isVarint hg]
    rfl
  have hnat : (BitVec.ofNat 32 (varintVal g)).toNat = varintVal g % 2 ^ 32 := BitVec.toNat_ofNat ..
  unfold Roomy at hR
  have hnone : getRange bytes (s + g.length) (s + g.length + varintVal g % 2 ^ 32) = none := by
    unfold getRange; rw [if_neg (by omega)]
  have hadd : T.usizeAdd (s + g.length) (varintVal g % 2 ^ 32)
      = .ok (s + g.length + varintVal g % 2 ^ 32) := usizeAdd_ok (by omega)
  refine ⟨⟨⟨s + g.length, s + g.length + varintVal g % 2 ^ 32⟩, ?_⟩,
    ⟨⟨s + g.length, s + g.length + varintVal g % 2 ^ 32⟩, ?_⟩, fun α M => ⟨⟨s + g.length, bytes.length⟩, ?_⟩, ?_⟩
  · simp only [read_bytes, read_len_varint, read_len, SM.bind_run, hv, SM.get_run, SM.lift_run, hnat,
      hadd, SM.set_run, getSelf, SM.okOr_run, hnone]
  · simp only [read_string, read_len_varint, read_len, SM.bind_run, hv, SM.get_run, SM.lift_run, hnat,
      hadd, SM.set_run, getSelf, SM.okOr_run, hnone]
  · simp only [read_packed_fixed, SM.bind_run, hv, BytesReader.len, SM.get_run, SM.lift_run]
    rw [usizeSub_ok (by omega)]
    simp only [SM.ite_run, hnat]
    rw [if_pos (by omega)]
    rfl
  · intro M read fuel v r' hsafe hgood h
    obtain ⟨len, r1, h1, h2⟩ := SM.bind_ok_inv h
    rw [hv, Prod.mk.injEq, Out.ok.injEq] at h1
    obtain ⟨rfl, rfl⟩ := h1
    have hR' : Roomy T bytes := hR
    simp only [read_len, SM.bind_run, SM.get_run, SM.lift_run, hnat, hadd, SM.set_run] at h2
    rcases hw : whileNotEof (fun (acc : List M) => do let m ← read bytes; pure (m :: acc)) fuel []
        ⟨s + g.length, s + g.length + varintVal g % 2 ^ 32⟩ with ⟨o, r2⟩
    rw [hw] at h2
    cases o with
    | ok acc =>
      -- the invariant of the loop also has to keep the reader in range
      have key : ∀ (fuel : Nat) (acc : List M) (r : BytesReader), r.start ≤ bytes.length →
          r.fin ≤ bytes.length + 2 ^ 32 → bytes.length < r.fin → ∀ a r',
          whileNotEof (fun (acc : List M) => do let m ← read bytes; pure (m :: acc)) fuel acc r
            ≠ (.ok a, r') := by
        intro fuel
        induction fuel with
        | zero => intro acc r _ _ _ a r'; simp [whileNotEof, SM.lift_run]
        | succ n ih =>
          intro acc r h3 h4 h5 a r' h
          have he : r.is_eof = false := by
            simp only [is_eof, beq_eq_false_iff_ne]; omega
          simp only [whileNotEof, SM.bind_run, SM.get_run, he, SM.ite_run, Bool.false_eq_true, if_false] at h
          rcases hsafe bytes r hR' ⟨by omega, by omega⟩ with ⟨m, r3, h6, h7⟩ | ⟨e, r3, h6⟩
          · rw [h6] at h
            have h8 := (hgood.orderly bytes r hR' ⟨by omega, by omega⟩ _ _ h6).2.2 ⟨m, rfl⟩
            exact ih _ r3 h7 (by omega) (by omega) a r' h
          · rw [h6] at h; simp at h
      exact key fuel [] _ (by simp only; omega) (by simp only; omega) (by simp only; omega) _ _ hw
    | _ => simp at h2

/-- **C21** is false for messages: a message type without fields (`read_to_end`) of declared length
5 in an empty rest of the buffer is accepted, and the reader ends up beyond the buffer; and so is a
message that ends with an unknown `fixed32` of which no byte is present. -/
theorem C21_overlong_message_accepted :
    read_message Target.debug64 [5#8] read_to_end ⟨0, 1⟩ = (.ok (), ⟨6, 1⟩) ∧
    read_message Target.debug64 [5#8, 0x0d#8]
      (whileNotEof (fun _ => do
        let t ← next_tag [5#8, 0x0d#8]
        read_unknown Target.debug64 [5#8, 0x0d#8] t) 10 ()) ⟨0, 2⟩ = (.ok (), ⟨6, 2⟩) := by decide

example : IsVarint [0x05#8] ∧ Roomy Target.debug64 [0x05#8, 1#8] ∧
    ([0x05#8, 1#8] : Bytes).drop 0 = [0x05#8] ++ [1#8] ∧ ([1#8] : Bytes).length < varintVal [0x05#8] % 2 ^ 32 :=
  ⟨⟨[], 5#8, rfl, by decide, by decide, by decide⟩, roomy64 _ rfl _ (by decide), rfl, by decide⟩

/-! ## C31 -/

/-- Run the reads one after the other on a `Reader`, collecting the outcomes. -/
def Reader.readAll {M : Type} : List (Bytes → RM M) → Reader → List (Out M) × Reader
  | [], r => ([], r)
  | f :: fs, r =>
    let (o, r1) := r.read f
    let (os, r2) := Reader.readAll fs r1
    (o :: os, r2)

/-- The same on a `BytesReader` and a separate buffer. -/
def BytesReader.readAll {M : Type} (bytes : Bytes) :
    List (Bytes → RM M) → BytesReader → List (Out M) × BytesReader
  | [], r => ([], r)
  | f :: fs, r =>
    let (o, r1) := f bytes r
    let (os, r2) := BytesReader.readAll bytes fs r1
    (o :: os, r2)

/-- **C31.** A `Reader` built from bytes answers every sequence of reads exactly as a `BytesReader`
over those bytes, and its buffer never changes; `from_reader` takes exactly the announced number of
bytes or fails. -/
theorem C31_reader_is_bytes_reader {M : Type} (bytes : Bytes) (fs : List (Bytes → RM M)) :
    Reader.readAll fs (Reader.from_bytes bytes)
      = ((BytesReader.readAll bytes fs (BytesReader.from_bytes bytes)).1,
         ⟨bytes, (BytesReader.readAll bytes fs (BytesReader.from_bytes bytes)).2⟩) ∧
    ∀ (src : Bytes) (n : Nat),
      (n ≤ src.length → Reader.from_reader src n = .ok (Reader.from_bytes (src.take n))) ∧
      (src.length < n → Reader.from_reader src n = .err .Io) := by
  constructor
  · have key : ∀ (fs : List (Bytes → RM M)) (r : BytesReader),
        Reader.readAll fs ⟨bytes, r⟩ = ((BytesReader.readAll bytes fs r).1,
          ⟨bytes, (BytesReader.readAll bytes fs r).2⟩) := by
      intro fs
      induction fs with
      | nil => intro r; rfl
      | cons f fs ih =>
        intro r
        simp only [Reader.readAll, BytesReader.readAll, Reader.read]
        rw [ih]
    exact key fs _
  · intro src n
    unfold Reader.from_reader
    exact ⟨fun h => by rw [if_pos h], fun h => by rw [if_neg (by omega)]⟩

end QP
