import Verif.Proofs.Fuel
import Verif.Spec.Intact
import Verif.Props.Example
/-!
# C22, C23: decoding arbitrary bytes with generated code: panics and termination
-/

set_option linter.unusedVariables false

namespace QP.Gen
open QP.Pbrs Spec BytesReader

/-! ## C23 -/

/-- **C23**, partial: in builds with overflow checks, for every schema, every message type and every
input, decoding terminates: `from_reader` (over the whole buffer) and `deserialize_from_slice` do
not run out of `fuel`, the number of iterations allowed to each loop and of nested calls, when it is
one more than the number of bytes; and more fuel changes nothing. 64 bit targets.
Missing: builds without overflow checks, where it is false (`C23_release_diverges`). -/
theorem C23_terminates_partial (C : Ctx) (hT : C.T.overflowChecks = true) (idx : MessageIndex)
    (bytes : Bytes) (hR : Roomy C.T bytes) (fuel : Nat) (hf : bytes.length < fuel) :
    ((fromReader C fuel idx bytes (from_bytes bytes)).1 ≠ .timeout ∧
      ∀ more, fuel ≤ more →
        fromReader C more idx bytes (from_bytes bytes) = fromReader C fuel idx bytes (from_bytes bytes)) ∧
    (deserialize_from_slice C.T (fromReader C fuel idx) bytes ≠ .timeout ∧
      ∀ more, fuel ≤ more →
        deserialize_from_slice C.T (fromReader C more idx) bytes =
          deserialize_from_slice C.T (fromReader C fuel idx) bytes) := by
  have hr : InRange bytes (from_bytes bytes) := ⟨by simp [from_bytes], by simp [from_bytes]⟩
  refine ⟨⟨(agree_fromReader hT hR fuel fuel idx 0 (by omega) (by omega) _ hr (by omega)).2, fun more hm => ?_⟩,
    ⟨?_, fun more hm => ?_⟩⟩
  · exact (agree_fromReader hT hR more fuel idx 0 (by omega) (by omega) _ hr (by omega)).1
  · exact (Agree.read_len_varint (T := C.T) (lo := 0) hR (fun hl => agree_fromReader hT hR fuel fuel idx (0 + 1)
      (by omega) (by omega)) _ hr (by omega)).2
  · have := (Agree.read_len_varint (T := C.T) (lo := 0) hR (fun hl => agree_fromReader hT hR more fuel idx (0 + 1)
      (by omega) (by omega)) _ hr (by omega)).1
    exact congrArg Prod.fst this

example : Roomy (Example.ctx Target.debug64).T [0x08#8, 5#8] := roomy64 _ rfl _ (by decide)

/-- Field 7 (a nested `Node`) of one byte, holding the tag of field 1 (the value follows outside,
so the position is now beyond the limit); then an unknown length-delimited field whose length is
`2^64 - 13`. -/
def loopBytes : Bytes := [0x3a#8, 1#8, 0x08#8, 0#8, 0x62#8, 0xf3#8, 0xff#8, 0xff#8, 0xff#8, 0xff#8, 0xff#8,
  0xff#8, 0xff#8, 0xff#8, 1#8]

/-- Without overflow checks these fifteen bytes send the decoder of the example schema into an
infinite loop: `end - start` wraps, so skipping the unknown field moves *backwards*, to the start of
the nested message. However many iterations are allowed, the decoder is not done. -/
theorem C23_release_diverges (fuel : Nat) :
    (fromReader (Example.ctx Target.release64) fuel [0] loopBytes (from_bytes loopBytes)).1 = .timeout := by
  have step1 : ∀ n, msgStep (Example.ctx Target.release64) (fromReader (Example.ctx Target.release64) n) (n + 1)
      (arms {} Example.node) loopBytes Example.nodeDefault.slots ⟨2, 3⟩
      = (.ok Example.nodeDefault.slots, ⟨4, 3⟩) := fun n => rfl
  have step2 : ∀ n, msgStep (Example.ctx Target.release64) (fromReader (Example.ctx Target.release64) n) (n + 1)
      (arms {} Example.node) loopBytes Example.nodeDefault.slots ⟨4, 3⟩
      = (.ok Example.nodeDefault.slots, ⟨2, 3⟩) := fun n => rfl
  have loop : ∀ n k, ∃ r, whileNotEof
      (msgStep (Example.ctx Target.release64) (fromReader (Example.ctx Target.release64) n) (n + 1)
        (arms {} Example.node) loopBytes) k Example.nodeDefault.slots ⟨2, 3⟩ = (.timeout, r) ∧ True := by
    intro n k
    induction k using Nat.strongRecOn with
    | ind k ih =>
      match k with
      | 0 => exact ⟨_, rfl, trivial⟩
      | 1 =>
        refine ⟨⟨4, 3⟩, ?_, trivial⟩
        simp only [whileNotEof, SM.bind_run, SM.get_run, show is_eof ⟨2, 3⟩ = false from rfl,
          Bool.false_eq_true, if_false, step1, SM.lift_run]
      | k + 2 =>
        obtain ⟨r, hr, _⟩ := ih k (by omega)
        refine ⟨r, ?_, trivial⟩
        simp only [whileNotEof, SM.bind_run, SM.get_run, show is_eof ⟨2, 3⟩ = false from rfl,
          show is_eof ⟨4, 3⟩ = false from rfl, Bool.false_eq_true, if_false, step1, step2]
        exact hr
  have inner : ∀ n, ∃ r, fromReader (Example.ctx Target.release64) n [0] loopBytes ⟨2, 3⟩ = (.timeout, r) := by
    intro n
    cases n with
    | zero => exact ⟨_, rfl⟩
    | succ n =>
      obtain ⟨r, hr, _⟩ := loop n (n + 1)
      have hu : Example.node.isUnit = false := rfl
      rw [fromReader_msg n (Example.get_node0 _) hu]
      exact ⟨r, by simp only [SM.bind_run]; rw [show ((Example.ctx Target.release64).dflt [0]).slots
        = Example.nodeDefault.slots from rfl, show (Example.ctx Target.release64).cfg = {} from rfl, hr]⟩
  cases fuel with
  | zero => rfl
  | succ n =>
    have hu : Example.node.isUnit = false := rfl
    obtain ⟨r, hr⟩ := inner n
    have hstep : msgStep (Example.ctx Target.release64) (fromReader (Example.ctx Target.release64) n) (n + 1)
        (arms {} Example.node) loopBytes Example.nodeDefault.slots ⟨0, 15⟩ = (.timeout, r) := by
      have hfind : (arms {} Example.node).find? (fun a => a.field.tag == 0x3a#32)
          = Option.some ⟨6, Example.fChild, Option.none⟩ := rfl
      have hread : ∀ rd : MessageIndex → Bytes → RM RVal, rd [0] loopBytes ⟨2, 3⟩ = (.timeout, r) →
          readTyp (Example.ctx Target.release64) rd (.message [0]) loopBytes ⟨1, 15⟩ = (.timeout, r) := by
        intro rd hrd
        have hv : read_varint32 loopBytes ⟨1, 15⟩ = (.ok 1#32, ⟨2, 15⟩) := rfl
        simp only [readTyp, read_message, read_len_varint]
        rw [SM.bind_ok hv]
        simp only [read_len, SM.bind_run, SM.get_run, SM.lift_run,
          show (Example.ctx Target.release64).T.usizeAdd 2 (1#32 : BitVec 32).toNat = .ok 3 from rfl, SM.set_run, hrd]
      have ht : next_tag loopBytes ⟨0, 15⟩ = (.ok 0x3a#32, ⟨1, 15⟩) := rfl
      unfold msgStep
      rw [SM.bind_ok ht]
      simp only [hfind, armRead, Example.fChild, SM.bind_run]
      simp [hread _ hr]
    rw [fromReader_msg n (Example.get_node0 _) hu]
    simp only [SM.bind_run, whileNotEof, SM.get_run]
    rw [show from_bytes loopBytes = ⟨0, 15⟩ from rfl, show ((Example.ctx Target.release64).dflt [0]).slots
        = Example.nodeDefault.slots from rfl, show (Example.ctx Target.release64).cfg = {} from rfl]
    simp only [show is_eof ⟨0, 15⟩ = false from rfl, Bool.false_eq_true, if_false, SM.bind_run, hstep]

/-! ## C22 -/

/-- Four bytes on which decoding panics, in every profile: a nested message that declares 100 bytes
(the buffer ends after two), holding a packed fixed field that declares eight. The length is
compared with what the *declared* message has left, then the buffer is sliced. -/
theorem C22_slice_panic (T : Target) (hT : T = Target.debug64 ∨ T = Target.release64) :
    (fromReader (Example.ctx T) 5 [0] [0x3a#8, 100#8, 0x22#8, 8#8] ⟨0, 4⟩).1 = .panic := by
  rcases hT with rfl | rfl <;> rfl

/-- Six bytes on which decoding panics with overflow checks: a field of a nested message runs over
the end of that message, and then comes an unknown field: `end - start` underflows. -/
theorem C22_underflow_panic :
    (fromReader (Example.ctx Target.debug64) 7 [0] [0x3a#8, 1#8, 0x08#8, 0#8, 0x65#8, 0#8] ⟨0, 6⟩).1
      = .panic := by
  rfl

/-- The same through `deserialize_from_slice`, without any nesting: the length prefix of the message
may exceed the buffer. -/
theorem C22_framed_panic (T : Target) (hT : T = Target.debug64 ∨ T = Target.release64) :
    deserialize_from_slice T (fromReader (Example.ctx T) 4 [0]) [100#8, 0x22#8, 8#8] = .panic := by
  rcases hT with rfl | rfl <;> rfl

section
variable {T : Target} {α β : Type}

/-- `Ok` with progress, inside the buffer, or `Err`; in any profile. -/
def Steps (T : Target) {α : Type} (p : Bytes → RM α) : Prop :=
  ∀ b r, Roomy T b → InRange b r →
    (∃ a s', p b r = (.ok a, ⟨s', r.fin⟩) ∧ r.start < s' ∧ s' ≤ b.length) ∨ (∃ e r', p b r = (.err e, r'))

theorem Steps.of {p : Bytes → RM α} (h1 : ScalarSafe T p) (h2 : KeepsLimit p) (h3 : Adv T p) : Steps T p := by
  intro b r hR hr
  rcases h1 b r hR hr with ⟨a, ⟨s', f'⟩, h, hl⟩ | h
  · have := h2 b r a _ h
    simp only at this
    subst this
    exact Or.inl ⟨a, s', h, (h3 b r a _ hR hr h).1, hl⟩
  · exact Or.inr h

theorem Steps.map {p : Bytes → RM α} (h : Steps T p) (f : α → β) :
    Steps T (fun b => do let a ← p b; pure (f a)) := by
  intro b r hR hr
  rcases h b r hR hr with ⟨a, s', h1, h2⟩ | ⟨e, r', h1⟩
  · exact Or.inl ⟨f a, s', (SM.bind_ok h1).trans rfl, h2⟩
  · exact Or.inr ⟨e, r', SM.bind_err h1⟩

theorem Steps.throw (e : Error) : Steps T (fun _ => (SM.throw e : RM α)) := fun b r _ _ => Or.inr ⟨e, r, rfl⟩

theorem Steps.bind {p : Bytes → RM α} {q : α → Bytes → RM β} (hp : Steps T p) (hq : ∀ a, Steps T (q a)) :
    Steps T (fun b => do let a ← p b; q a b) := by
  intro b r hR hr
  rcases hp b r hR hr with ⟨a, s', h1, h2, h3⟩ | ⟨e, r', h1⟩
  · rcases hq a b ⟨s', r.fin⟩ hR ⟨by simp only; omega, hr.2⟩ with ⟨c, s2, k1, k2, k3⟩ | ⟨e, r', k1⟩
    · exact Or.inl ⟨c, s2, (SM.bind_ok h1).trans k1, by simp only at k2; omega, k3⟩
    · exact Or.inr ⟨e, r', (SM.bind_ok h1).trans k1⟩
  · exact Or.inr ⟨e, r', SM.bind_err h1⟩

theorem Steps.ite {c : Prop} [Decidable c] {p q : Bytes → RM α} (hp : Steps T p) (hq : Steps T q) :
    Steps T (fun bs => if c then p bs else q bs) := by
  by_cases h : c
  · simp only [if_pos h]; exact hp
  · simp only [if_neg h]; exact hq

theorem Steps.u8 : Steps T read_u8 := Steps.of scalarSafe_u8 KeepsLimit.read_u8 Adv.read_u8
theorem Steps.varint32 : Steps T read_varint32 :=
  Steps.of scalarSafe_varint32 KeepsLimit.read_varint32 Adv.read_varint32
theorem Steps.varint64 : Steps T read_varint64 :=
  Steps.of scalarSafe_varint64 KeepsLimit.read_varint64 Adv.read_varint64
theorem Steps.fixed {len : Nat} (h0 : 0 < len) (hl : len ≤ 2 ^ 32) (f : Bytes → α) :
    Steps T (fun b => read_fixed T b len f) :=
  Steps.of (scalarSafe_fixed hl f) (KeepsLimit.read_fixed len f) (Adv.read_fixed h0 hl f)
theorem Steps.bytes : Steps T (read_bytes T) :=
  Steps.of scalarSafe_bytes (KeepsLimit.read_len_varint _) (Adv.read_len_varint (Good.entry Good.getSelf))
theorem Steps.string : Steps T (read_string T) :=
  Steps.of scalarSafe_string
    (KeepsLimit.read_len_varint (fun b => do let x ← getSelf b; if utf8Ok x then pure x else SM.throw .Utf8))
    (Adv.read_len_varint (Good.entry (Good.bind Good.getSelf (fun x => Good.ite (Good.pure x) (Good.throw _)))))

/-- A loop of such steps, entered inside the buffer. -/
theorem Steps.loop {A : Type} {step : Bytes → A → RM A} (hs : ∀ a, Steps T (fun b => step b a)) {b : Bytes}
    (hR : Roomy T b) (fuel : Nat) (acc : A) (r : BytesReader) (hr : InRange b r) (hs0 : r.start ≤ b.length)
    (hf : b.length - r.start < fuel) :
    (∃ a, whileNotEof (step b) fuel acc r = (.ok a, ⟨r.fin, r.fin⟩) ∧ r.fin ≤ b.length) ∨
      (∃ e r', whileNotEof (step b) fuel acc r = (.err e, r')) := by
  induction fuel generalizing acc r with
  | zero => omega
  | succ n ih =>
    simp only [BytesReader.whileNotEof, SM.bind_run, SM.get_run]
    by_cases he : r.is_eof = true
    · rw [if_pos he]
      have he : r.start = r.fin := by simpa [is_eof] using he
      refine Or.inl ⟨acc, ?_, by omega⟩
      rw [SM.pure_run]
      obtain ⟨s, f⟩ := r
      simp only at he
      rw [he]
    · rw [if_neg he]
      rcases hs acc b r hR hr with ⟨a, s', h1, h2, h3⟩ | ⟨e, r', h1⟩
      · rw [SM.bind_ok h1]
        exact ih a ⟨s', r.fin⟩ ⟨by simp only; omega, hr.2⟩ h3 (by simp only; omega)
      · exact Or.inr ⟨e, r', SM.bind_err h1⟩

/-- A length-prefixed loop. -/
theorem Steps.delimited {A : Type} {step : Bytes → A → RM A} (hs : ∀ a, Steps T (fun b => step b a)) (acc : A)
    (fin : A → β) {b : Bytes} (hR : Roomy T b) (fuel : Nat) (hf : b.length < fuel) (r : BytesReader)
    (hr : InRange b r) :
    (∃ a s', read_len_varint T b (do let v ← whileNotEof (step b) fuel acc; pure (fin v)) r = (.ok a, ⟨s', r.fin⟩)
        ∧ r.start < s' ∧ s' ≤ b.length) ∨
      (∃ e r', read_len_varint T b (do let v ← whileNotEof (step b) fuel acc; pure (fin v)) r = (.err e, r')) := by
  rcases Steps.varint32 b r hR hr with ⟨v, s', h1, h2, h3⟩ | ⟨e, r', h1⟩
  · have hlt := v.isLt
    have hR' := hR
    unfold Roomy at hR'
    simp only [read_len_varint]
    rw [SM.bind_ok h1]
    simp only [read_len, SM.bind_run, SM.get_run, SM.lift_run,
      usizeAdd_ok (T := T) (a := s') (b := v.toNat) (by omega), SM.set_run]
    rcases Steps.loop hs hR fuel acc ⟨s', s' + v.toNat⟩ ⟨by simp only; omega, by simp only; omega⟩ h3
      (by simp only; omega) with ⟨a, k1, k2⟩ | ⟨e, r', k1⟩
    · simp only [k1, SM.pure_run]
      exact Or.inl ⟨_, _, rfl, by simp only at k2 ⊢; omega, k2⟩
    · simp only [k1]
      exact Or.inr ⟨_, _, rfl⟩
  · exact Or.inr ⟨e, r', SM.bind_err h1⟩

end

/-- A well-formed message without nested messages: every field has a flat type, or is a map between
flat types. -/
structure FlatMessage (cfg : Config) (m : Message) : Prop where
  ok : MessageOk cfg m
  flat : ∀ a ∈ arms cfg m, FlatType a.field.typ ∨
    (a.choice = Option.none ∧ ∃ k v, a.field.typ = .map k v ∧ FlatType k ∧ FlatType v)

section
variable {C : Ctx} {rd : MessageIndex → Bytes → RM RVal}

theorem steps_readTyp {t : FieldType} (h : FlatType t) : Steps C.T (readTyp C rd t) := by
  have hm : ∀ {α : Type} {p : Bytes → RM α} (f : α → RVal), Steps C.T p →
      Steps C.T (fun b => do let x ← p b; pure (f x)) := fun f hp => Steps.map hp f
  have v32 := Steps.varint32 (T := C.T)
  have v64 := Steps.varint64 (T := C.T)
  have f32 := Steps.fixed (T := C.T) (len := 4) (by omega) (by omega) leRead32
  have f64 := Steps.fixed (T := C.T) (len := 8) (by omega) (by omega) leRead64
  cases t
  case int32 => exact hm RVal.w32 v32
  case int64 => exact hm RVal.w64 v64
  case uint32 => exact hm RVal.w32 v32
  case uint64 => exact hm RVal.w64 v64
  case sint32 => exact hm RVal.w32 (Steps.map v32 _)
  case sint64 => exact hm RVal.w64 (Steps.map v64 _)
  case bool => exact hm RVal.bool (Steps.map v32 _)
  case enum e => exact hm RVal.w32 (Steps.map v32 _)
  case fixed64 => exact hm RVal.w64 f64
  case sfixed64 => exact hm RVal.w64 f64
  case double => exact hm RVal.w64 f64
  case fixed32 => exact hm RVal.w32 f32
  case sfixed32 => exact hm RVal.w32 f32
  case float => exact hm RVal.w32 f32
  case stringCow => exact hm RVal.bytes Steps.string
  case string_ => exact hm RVal.bytes Steps.string
  case bytesCow => exact hm RVal.bytes Steps.bytes
  case bytes_ => exact hm RVal.bytes Steps.bytes
  case message m => exact h.elim
  case messageOrEnum => exact h.elim
  case map => exact h.elim

/-- What happens at a position inside a buffer whose end is the limit. -/
def AtEnd {α : Type} (b : Bytes) (s : Nat) (p : RM α) : Prop :=
  (∃ a s', p ⟨s, b.length⟩ = (.ok a, ⟨s', b.length⟩) ∧ s ≤ s' ∧ s' ≤ b.length) ∨
    (∃ e r', p ⟨s, b.length⟩ = (.err e, r'))

theorem Steps.atEnd {T : Target} {α : Type} {p : Bytes → RM α} (h : Steps T p) {b : Bytes} (hR : Roomy T b)
    {s : Nat} (hs : s ≤ b.length) : AtEnd b s (p b) := by
  rcases h b ⟨s, b.length⟩ hR ⟨by simp only; omega, by simp only; omega⟩ with ⟨a, s', h1, h2, h3⟩ | h1
  · exact Or.inl ⟨a, s', h1, by simp only at h2; omega, h3⟩
  · exact Or.inr h1

theorem AtEnd.map {α β : Type} {b : Bytes} {s : Nat} {p : RM α} (h : AtEnd b s p) (f : α → β) :
    AtEnd b s (do let a ← p; pure (f a)) := by
  rcases h with ⟨a, s', h1, h2⟩ | ⟨e, r', h1⟩
  · exact Or.inl ⟨f a, s', (SM.bind_ok h1).trans rfl, h2⟩
  · exact Or.inr ⟨e, r', SM.bind_err h1⟩

theorem AtEnd.bind {α β : Type} {b : Bytes} {s : Nat} {p : RM α} {q : α → RM β} (h : AtEnd b s p)
    (hq : ∀ a s', s ≤ s' → s' ≤ b.length → AtEnd b s' (q a)) : AtEnd b s (do let a ← p; q a) := by
  rcases h with ⟨a, s', h1, h2, h3⟩ | ⟨e, r', h1⟩
  · rcases hq a s' h2 h3 with ⟨c, s2, k1, k2, k3⟩ | ⟨e, r', k1⟩
    · exact Or.inl ⟨c, s2, (SM.bind_ok h1).trans k1, by omega, k3⟩
    · exact Or.inr ⟨e, r', (SM.bind_ok h1).trans k1⟩
  · exact Or.inr ⟨e, r', SM.bind_err h1⟩

theorem atEnd_packed_fixed {T : Target} {α : Type} (M : MemTy α) (hz : M.size ≠ 0) {b : Bytes}
    (hR : Roomy T b) {s : Nat} (hs : s ≤ b.length) : AtEnd b s (read_packed_fixed T M b) := by
  unfold read_packed_fixed
  refine AtEnd.bind (Steps.varint32.atEnd hR hs) (fun len s1 h1 h2 => ?_)
  have hR' := hR
  unfold Roomy at hR'
  simp only [BytesReader.len, AtEnd, SM.bind_run, SM.get_run, SM.lift_run, usizeSub_ok h2, SM.ite_run]
  by_cases hn : b.length - s1 < len.toNat
  · rw [if_pos hn]; exact Or.inr ⟨_, _, rfl⟩
  rw [if_neg hn, if_neg hz]
  have hq := Nat.div_mul_le_self len.toNat M.size
  have hg : getRange b s1 (s1 + len.toNat / M.size * M.size) = some (slice b s1 (s1 + len.toNat / M.size * M.size)) := by
    unfold getRange; rw [if_pos (by omega)]; rfl
  simp only [SM.bind_run, SM.get_run, SM.lift_run,
    usizeAdd_ok (T := T) (a := s1) (b := len.toNat / M.size * M.size) (by omega), hg, SM.pure_run,
    usizeAdd_ok (T := T) (a := s1) (b := len.toNat) (by omega), SM.set_run]
  exact Or.inl ⟨_, _, rfl, by omega, by omega⟩

theorem atEnd_skip {T : Target} (n : Nat) {b : Bytes} (hR : Roomy T b) {s : Nat} (hs : s ≤ b.length) :
    AtEnd b s (skip T n) := by
  have hR' := hR
  unfold Roomy at hR'
  simp only [AtEnd, skip, SM.bind_run, SM.get_run, SM.lift_run, usizeSub_ok hs, SM.ite_run]
  by_cases hn : b.length - s < n
  · rw [if_pos hn]; exact Or.inr ⟨_, _, rfl⟩
  rw [if_neg hn]
  simp only [SM.bind_run, SM.lift_run, usizeAdd_ok (T := T) (a := s) (b := n) (by omega), SM.set_run]
  exact Or.inl ⟨_, _, rfl, by omega, by omega⟩

theorem atEnd_unknown {T : Target} (tag : BitVec 32) {b : Bytes} (hR : Roomy T b) {s : Nat} (hs : s ≤ b.length) :
    AtEnd b s (read_unknown T b tag) := by
  have ite : ∀ {α : Type} {c : Prop} [Decidable c] {p q : RM α} {s : Nat}, AtEnd b s p → AtEnd b s q →
      AtEnd b s (if c then p else q) := by
    intro α c _ p q s hp hq
    by_cases h : c
    · rw [if_pos h]; exact hp
    · rw [if_neg h]; exact hq
  have thr : ∀ {α : Type} (e : Error) (s : Nat), AtEnd b s (SM.throw e : RM α) := fun e s => Or.inr ⟨e, _, rfl⟩
  unfold read_unknown
  refine ite ((Steps.varint64.atEnd hR hs).map _) (ite (atEnd_skip 8 hR hs) (ite (atEnd_skip 4 hR hs) (ite ?_ ?_)))
  · exact AtEnd.bind (Steps.varint64.atEnd hR hs) (fun v s1 _ h2 => ite (atEnd_skip _ hR h2) (thr _ _))
  · exact ite (thr _ _) (thr _ _)

theorem atEnd_armRead {a : Arm} (h : FlatArm a) {b : Bytes} (hR : Roomy C.T b) {s : Nat} (hs : s ≤ b.length)
    {fuel : Nat} (hf : b.length < fuel) : AtEnd b s (armRead C rd fuel a b) := by
  have hr : InRange b ⟨s, b.length⟩ := ⟨by simp only; omega, by simp only; omega⟩
  rcases h with ⟨h, hnm⟩ | ⟨k, v, h1, h2, h3, h4, h5, h6⟩
  · have ht := (steps_readTyp (C := C) (rd := rd) h).atEnd hR hs
    unfold armRead
    by_cases hc : (a.choice.isSome || a.field.boxed) = true
    · rw [if_pos hc]; exact ht
    rw [if_neg hc]
    have hno : a.choice = Option.none := by
      cases h : a.choice with
      | none => rfl
      | some c => simp [h] at hc
    split
    · exact ht
    · split
      · split
        · split
          · exact (atEnd_packed_fixed _ (by simp [MemTy.int]) hR hs).map _
          · exact (atEnd_packed_fixed _ (by simp [MemTy.int]) hR hs).map _
        · refine AtEnd.map ?_ _
          rcases Steps.delimited (T := C.T)
            (step := fun b (acc : List RVal) => (do let m ← readTyp C rd a.field.typ b; pure (m :: acc)))
            (fun acc => Steps.map (steps_readTyp h) _) [] (fun v => v.reverse) hR fuel hf _ hr with
            ⟨x, s', e1, e2, e3⟩ | e
          · exact Or.inl ⟨x, s', e1, by simp only at e2; omega, e3⟩
          · exact Or.inr e
      · exact ht
    · rename_i hg
      exact absurd hg (hnm hno)
  · unfold armRead
    simp only [h4, h5, h6, h1, Option.isSome, Bool.or_self, Bool.false_eq_true, if_false]
    refine AtEnd.map ?_ _
    rcases Steps.delimited (T := C.T)
      (step := fun b (kv : RVal × RVal) => (do
        let t ← read_u8 b
        let n := t >>> 3
        if n = 1#8 then do
          let k ← readTyp C rd k b
          pure (k, kv.2)
        else if n = 2#8 then do
          let v ← readTyp C rd v b
          pure (kv.1, v)
        else SM.throw (.Map n)))
      (fun kv => Steps.bind Steps.u8 (fun t => Steps.ite (Steps.map (steps_readTyp h2) (fun k => (k, kv.2)))
        (Steps.ite (Steps.map (steps_readTyp h3) (fun v => (kv.1, v))) (Steps.throw _))))
      (typDefault C k, typDefault C v) (fun v => v) hR fuel hf _ hr with ⟨x, s', e1, e2, e3⟩ | e
    · rw [bind_pure] at e1
      exact Or.inl ⟨x, s', e1, by simp only at e2; omega, e3⟩
    · rw [bind_pure] at e
      exact Or.inr e

theorem FlatMessage.arm {cfg : Config} {m : Message} (h : FlatMessage cfg m) {a : Arm} (ha : a ∈ arms cfg m) :
    FlatArm a := by
  obtain ⟨mem, h1, h2⟩ := mem_arms.mp ha
  have hok := h.ok.members mem (List.mem_of_getElem? h1)
  have hgm : ∀ q : Frequency, q.generated = .map ↔ q.isMap = true := by
    intro q; cases q <;> simp [Frequency.generated, Frequency.isMap, Frequency.isRepeated]
  cases mem with
  | field f =>
    simp only [memberArms, List.mem_singleton] at h2
    have hok : FieldOk f := hok
    have hfield : a.field = f := by rw [h2]
    rcases h.flat a ha with hf | ⟨hc, k, v, hk, hk1, hk2⟩
    · refine Or.inl ⟨hf, fun _ hg => ?_⟩
      have := hok.map
      rw [hfield] at hg hf
      rw [(hgm _).mp hg] at this
      cases ht : f.typ <;> rw [ht] at this hf <;> simp [FieldType.isMap, FlatType] at this hf
    · refine Or.inr ⟨k, v, hk, hk1, hk2, hc, ?_, ?_⟩
      · rw [hfield] at hk ⊢
        have hm := hok.map
        rw [hk] at hm
        cases hb : f.boxed with
        | false => rfl
        | true =>
          have := hok.boxed hb
          cases hq : f.frequency <;> rw [hq] at hm this <;>
            simp [Frequency.isMap, Frequency.isOptional, FieldType.isMap] at hm this
      · rw [hfield] at hk ⊢
        rw [hgm, hok.map, hk]; rfl
  | oneof fs =>
    simp only [memberArms, List.mem_map] at h2
    obtain ⟨⟨f, i⟩, _, he⟩ := h2
    have hc : a.choice = Option.some i := by rw [← he]
    rcases h.flat a ha with hf | ⟨hc', _⟩
    · exact Or.inl ⟨hf, fun hc' => by rw [hc] at hc'; cases hc'⟩
    · rw [hc] at hc'; cases hc'

theorem atEnd_msgStep {m : Message} (h : FlatMessage C.cfg m) {b : Bytes} (hR : Roomy C.T b) {s : Nat}
    (hs : s ≤ b.length) {fuel : Nat} (hf : b.length < fuel) (slots : List RVal) :
    (∃ a s', msgStep C rd fuel (arms C.cfg m) b slots ⟨s, b.length⟩ = (.ok a, ⟨s', b.length⟩) ∧ s < s' ∧
        s' ≤ b.length) ∨
      (∃ e r', msgStep C rd fuel (arms C.cfg m) b slots ⟨s, b.length⟩ = (.err e, r')) := by
  unfold msgStep
  rcases Steps.varint32 (T := C.T) b ⟨s, b.length⟩ hR ⟨by simp only; omega, by simp only; omega⟩ with
    ⟨t, s1, h1, h2, h3⟩ | ⟨e, r', h1⟩
  · simp only at h1 h2
    simp only [next_tag]
    rw [SM.bind_ok h1]
    have key : AtEnd b s1 (match (arms C.cfg m).find? (fun a => a.field.tag == t) with
        | Option.some a => do
          let v ← armRead C rd fuel a b
          pure (setSlot a.slot (fun old => armApply a old v) slots)
        | Option.none => do
          read_unknown C.T b t
          pure slots) := by
      cases hf' : (arms C.cfg m).find? (fun a => a.field.tag == t) with
      | none => exact (atEnd_unknown t hR h3).map (fun _ => slots)
      | some a =>
        exact (atEnd_armRead (h.arm (List.mem_of_find?_eq_some hf')) hR h3 hf).map
          (fun v => setSlot a.slot (fun old => armApply a old v) slots)
    rcases key with ⟨a, s', k1, k2, k3⟩ | k
    · exact Or.inl ⟨a, s', k1, by omega, k3⟩
    · exact Or.inr k
  · exact Or.inr ⟨e, r', SM.bind_err h1⟩

/-- **C22**, partial: for every message without nested messages (scalars, strings, bytes, enums,
repeated, packed, maps, oneofs), in both profiles, `from_reader` over a whole buffer returns `Ok` or
`Err` for every input: no panic, no out-of-bounds access, and (C23) it terminates.
The same for `deserialize_from_slice` when the length prefix is the number of bytes that follow.
Missing: nested messages and wrong length prefixes, where it is false (`C22_slice_panic`,
`C22_underflow_panic`, `C22_framed_panic`). 64 bit targets. -/
theorem C22_flat_safe_partial (C : Ctx) (idx : MessageIndex) (m : Message)
    (hm : C.D.getMessage idx = Option.some m) (hflat : FlatMessage C.cfg m) (bytes : Bytes)
    (hR : Roomy C.T bytes) (fuel : Nat) (hf : bytes.length < fuel) :
    ((∃ v, (fromReader C fuel idx bytes (from_bytes bytes)).1 = .ok v) ∨
      (∃ e, (fromReader C fuel idx bytes (from_bytes bytes)).1 = .err e)) ∧
    (∀ g body, IsVarint g → bytes = g ++ body → varintVal g % 2 ^ 32 = body.length →
      (∃ v, deserialize_from_slice C.T (fromReader C fuel idx) bytes = .ok v) ∨
      (∃ e, deserialize_from_slice C.T (fromReader C fuel idx) bytes = .err e)) := by
  obtain ⟨n, rfl⟩ : ∃ k, fuel = k + 1 := ⟨fuel - 1, by omega⟩
  have loop : ∀ k acc s, s ≤ bytes.length → bytes.length - s < k →
      (∃ a, whileNotEof (msgStep C (fromReader C n) (n + 1) (arms C.cfg m) bytes) k acc ⟨s, bytes.length⟩
        = (.ok a, ⟨bytes.length, bytes.length⟩)) ∨
      (∃ e r', whileNotEof (msgStep C (fromReader C n) (n + 1) (arms C.cfg m) bytes) k acc ⟨s, bytes.length⟩
        = (.err e, r')) := by
    intro k
    induction k with
    | zero => intro _ _ _ h; omega
    | succ k ih =>
      intro acc s hs hk
      simp only [BytesReader.whileNotEof, SM.bind_run, SM.get_run]
      by_cases he : is_eof ⟨s, bytes.length⟩ = true
      · rw [if_pos he]
        have he : s = bytes.length := by simpa [is_eof] using he
        exact Or.inl ⟨acc, by rw [SM.pure_run, he]⟩
      · rw [if_neg he]
        rcases atEnd_msgStep (rd := fromReader C n) hflat hR hs hf acc with ⟨a, s', h1, h2, h3⟩ | ⟨e, r', h1⟩
        · rw [SM.bind_ok h1]
          exact ih a s' h3 (by omega)
        · exact Or.inr ⟨e, r', SM.bind_err h1⟩
  have entry : ∀ s, s ≤ bytes.length →
      (∃ v, fromReader C (n + 1) idx bytes ⟨s, bytes.length⟩ = (.ok v, ⟨bytes.length, bytes.length⟩)) ∨
      (∃ e r', fromReader C (n + 1) idx bytes ⟨s, bytes.length⟩ = (.err e, r')) := by
    intro s hs
    cases hu : m.isUnit
    · rw [fromReader_msg n hm hu]
      rcases loop (n + 1) (C.dflt idx).slots s hs (by omega) with ⟨a, h⟩ | ⟨e, r', h⟩
      · exact Or.inl ⟨_, SM.bind_ok h⟩
      · exact Or.inr ⟨e, r', SM.bind_err h⟩
    · rw [fromReader_unit n hm hu]
      exact Or.inl ⟨_, rfl⟩
  refine ⟨?_, ?_⟩
  · rcases entry 0 (by omega) with ⟨v, h⟩ | ⟨e, r', h⟩
    · exact Or.inl ⟨v, congrArg Prod.fst h⟩
    · exact Or.inr ⟨e, congrArg Prod.fst h⟩
  · intro g body hg0 hb hlen0
    have hg : scan 10 bytes = .done g := by rw [hb]; exact scan_of_isVarint hg0 _
    have hlen : varintVal g % 2 ^ 32 + g.length = bytes.length := by rw [hb, List.length_append]; omega
    have hv : read_varint32 bytes ⟨0, bytes.length⟩ =
        (.ok (BitVec.ofNat 32 (varintVal g)), ⟨g.length, bytes.length⟩) := by
      rw [read_varint32_scan]
      simp only [List.drop_zero, hg, scanOut32, Nat.zero_add]
    have hR' := hR
    unfold Roomy at hR'
    have hx : (BitVec.ofNat 32 (varintVal g)).toNat = varintVal g % 2 ^ 32 := BitVec.toNat_ofNat ..
    have hsum : g.length + (BitVec.ofNat 32 (varintVal g)).toNat = bytes.length := by rw [hx]; omega
    simp only [deserialize_from_slice, read_message, from_bytes, read_len_varint]
    rw [SM.bind_ok hv]
    simp only [read_len, SM.bind_run, SM.get_run, SM.lift_run,
      usizeAdd_ok (T := C.T) (a := g.length) (b := (BitVec.ofNat 32 (varintVal g)).toNat) (by omega), SM.set_run,
      hsum]
    rcases entry g.length (by omega) with ⟨v, h⟩ | ⟨e, r', h⟩
    · rw [h]; exact Or.inl ⟨v, rfl⟩
    · rw [h]; exact Or.inr ⟨e, rfl⟩

/-- The example message without its nested message. -/
def Example.flat : Message := { Example.node with
  fields := [Example.fId, Example.fName, Example.fXs, Example.fYs, Example.fTags, Example.fProps, Example.fW,
    Example.fKind, Example.fOld] }

/-- The hypotheses of `C22_flat_safe_partial` are met by a message with scalars, strings, packed and
unpacked repeated fields, a map and a oneof. -/
example : FlatMessage {} Example.flat := by
  refine ⟨⟨?_, (by decide : ((arms {} Example.flat).map (·.field.number)).Nodup)⟩, ?_⟩
  · have hf : ∀ f : Field, (0 < f.number ∧ f.number < 2 ^ 29) → f.frequency.isMap = f.typ.isMap →
        (f.frequency.isRepeated = true → f.isPacked = true → f.typ.isPrimitive = true) →
        (f.boxed = true → f.frequency.isOptional = true) → MemberOk (.field f) :=
      fun f a b c d => ⟨a, b, c, d⟩
    intro mem hmem
    rw [show members {} Example.flat = [.field Example.fId, .field Example.fName, .field Example.fXs,
      .field Example.fYs, .field Example.fTags, .field Example.fProps, .field Example.fW,
      .field Example.fKind, .oneof [Example.fA, Example.fB]] from rfl] at hmem
    simp only [List.mem_cons, List.not_mem_nil, or_false] at hmem
    rcases hmem with rfl | rfl | rfl | rfl | rfl | rfl | rfl | rfl | rfl
    all_goals first
      | exact hf _ (by decide) (by decide) (by decide) (by decide)
      | (intro f hf
         simp only [List.mem_cons, List.not_mem_nil, or_false] at hf
         rcases hf with rfl | rfl <;> exact ⟨by decide⟩)
  · intro a ha
    rw [show arms {} Example.flat = [⟨0, Example.fId, Option.none⟩, ⟨1, Example.fName, Option.none⟩,
      ⟨2, Example.fXs, Option.none⟩, ⟨3, Example.fYs, Option.none⟩, ⟨4, Example.fTags, Option.none⟩,
      ⟨5, Example.fProps, Option.none⟩, ⟨6, Example.fW, Option.none⟩, ⟨7, Example.fKind, Option.none⟩,
      ⟨8, Example.fA, Option.some 0⟩, ⟨8, Example.fB, Option.some 1⟩] from rfl] at ha
    simp only [List.mem_cons, List.not_mem_nil, or_false] at ha
    rcases ha with rfl | rfl | rfl | rfl | rfl | rfl | rfl | rfl | rfl | rfl
    all_goals first
      | exact Or.inl trivial
      | exact Or.inr ⟨rfl, _, _, rfl, trivial, trivial⟩

end
end QP.Gen
