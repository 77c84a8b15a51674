import Verif.Props.Safety
import Verif.Props.Decode
import Verif.Props.Profiles
/-!
# C22, C23: decoding input whose nested messages are complete
-/

set_option linter.unusedVariables false

namespace QP
open Spec BytesReader

section
variable {T : Target} {α β : Type}

/-- Standing before `x`, with the limit not before the end of `x`, the reader takes exactly `x` or
fails with an error. -/
def Takes (T : Target) {α : Type} (p : Bytes → RM α) (x : Bytes) : Prop :=
  ∀ (pre suf : Bytes) (fin : Nat), (pre ++ (x ++ suf)).length < 2 ^ T.usizeBits → pre.length + x.length ≤ fin →
    (∃ a, p (pre ++ (x ++ suf)) ⟨pre.length, fin⟩ = (.ok a, ⟨pre.length + x.length, fin⟩)) ∨
      ∃ e r', p (pre ++ (x ++ suf)) ⟨pre.length, fin⟩ = (.err e, r')

/-- The same for a decoder that runs up to the limit. -/
def TakesAll (T : Target) {α : Type} (p : Bytes → RM α) (x : Bytes) : Prop :=
  ∀ (pre suf : Bytes), (pre ++ (x ++ suf)).length < 2 ^ T.usizeBits →
    (∃ a s, p (pre ++ (x ++ suf)) ⟨pre.length, pre.length + x.length⟩ = (.ok a, ⟨s, pre.length + x.length⟩)) ∨
      ∃ e r', p (pre ++ (x ++ suf)) ⟨pre.length, pre.length + x.length⟩ = (.err e, r')

theorem Takes.of {p : Bytes → RM α} {x : Bytes} {a : α} (h : ReadsAs T p x a) : Takes T p x :=
  fun pre suf fin hl hf => Or.inl ⟨a, h pre suf fin hl hf⟩

theorem Takes.throw (e : Error) (x : Bytes) : Takes T (fun _ => (SM.throw e : RM α)) x :=
  fun pre suf fin _ _ => Or.inr ⟨e, _, rfl⟩

theorem Takes.bind {p : Bytes → RM α} {q : α → Bytes → RM β} {x y : Bytes} (hp : Takes T p x)
    (hq : ∀ a, Takes T (q a) y) : Takes T (fun bs => do let a ← p bs; q a bs) (x ++ y) := by
  intro pre suf fin hlen hfin
  have h1 := hp pre (y ++ suf) fin (by simpa using hlen) (by simp at hfin; omega)
  simp only [List.append_assoc, List.length_append] at h1 ⊢
  rcases h1 with ⟨a, h1⟩ | ⟨e, r', h1⟩
  · have h2 := hq a (pre ++ x) suf fin (by simpa [Nat.add_assoc] using hlen) (by simp at hfin ⊢; omega)
    simp only [List.append_assoc, List.length_append] at h2
    rcases h2 with ⟨b, h2⟩ | ⟨e, r', h2⟩
    · exact Or.inl ⟨b, by rw [SM.bind_ok h1, h2, Nat.add_assoc]⟩
    · exact Or.inr ⟨e, r', by rw [SM.bind_ok h1, h2]⟩
  · exact Or.inr ⟨e, r', SM.bind_err h1⟩

/-- The first reader is known to succeed, with a known result. -/
theorem Takes.after {p : Bytes → RM α} {q : α → Bytes → RM β} {x y : Bytes} {a : α} (hp : ReadsAs T p x a)
    (hq : Takes T (q a) y) : Takes T (fun bs => do let a ← p bs; q a bs) (x ++ y) := by
  intro pre suf fin hlen hfin
  have h1 := hp pre (y ++ suf) fin (by simpa using hlen) (by simp at hfin; omega)
  simp only [List.append_assoc, List.length_append] at h1 ⊢
  have h2 := hq (pre ++ x) suf fin (by simpa [Nat.add_assoc] using hlen) (by simp at hfin ⊢; omega)
  simp only [List.append_assoc, List.length_append] at h2
  rcases h2 with ⟨b, h2⟩ | ⟨e, r', h2⟩
  · exact Or.inl ⟨b, by rw [SM.bind_ok h1, h2, Nat.add_assoc]⟩
  · exact Or.inr ⟨e, r', by rw [SM.bind_ok h1, h2]⟩

theorem Takes.map {p : Bytes → RM α} {x : Bytes} (h : Takes T p x) (f : α → β) :
    Takes T (fun b => do let a ← p b; pure (f a)) x := by
  intro pre suf fin hl hf
  rcases h pre suf fin hl hf with ⟨a, h1⟩ | ⟨e, r', h1⟩
  · exact Or.inl ⟨f a, (SM.bind_ok h1).trans (by rw [SM.pure_run])⟩
  · exact Or.inr ⟨e, r', SM.bind_err h1⟩

theorem TakesAll.map {p : Bytes → RM α} {x : Bytes} (h : TakesAll T p x) (f : α → β) :
    TakesAll T (fun b => do let a ← p b; pure (f a)) x := by
  intro pre suf hl
  rcases h pre suf hl with ⟨a, s, h1⟩ | ⟨e, r', h1⟩
  · exact Or.inl ⟨f a, s, (SM.bind_ok h1).trans (by rw [SM.pure_run])⟩
  · exact Or.inr ⟨e, r', SM.bind_err h1⟩

theorem takes_delimited {p : Bytes → RM α} {x body : Bytes} (hx : Gen.Delimited x body) (hp : TakesAll T p body) :
    Takes T (fun b => read_len_varint T b (p b)) x := by
  obtain ⟨g, hg, hl, rfl⟩ := hx
  unfold read_len_varint
  refine Takes.after (reads_isVarint32 hg) ?_ (q := fun len bs => read_len T (p bs) len.toNat)
  rw [show (BitVec.ofNat 32 (varintVal g)).toNat = body.length by rw [BitVec.toNat_ofNat, hl]]
  intro pre suf fin hlen hfin
  have hlen' := hlen
  simp only [List.length_append] at hlen'
  simp only [read_len, SM.bind_run, SM.get_run, SM.lift_run, usizeAdd_ok (T := T) (a := pre.length)
    (b := body.length) (by omega), SM.set_run]
  rcases hp pre suf hlen with ⟨a, s, h1⟩ | ⟨e, r', h1⟩
  · exact Or.inl ⟨a, by simp only [h1, SM.pure_run]⟩
  · exact Or.inr ⟨e, r', by simp only [h1]⟩

theorem takes_string {x body : Bytes} (hx : Gen.Delimited x body) : Takes T (read_string T) x := by
  unfold read_string
  refine takes_delimited hx (p := fun b => (do
    let x ← getSelf b
    if utf8Ok x then pure x else SM.throw .Utf8)) ?_
  intro pre suf hl
  have h1 := getSelf_reads body pre suf
  simp only [SM.bind_run, h1]
  by_cases hu : utf8Ok body = true
  · rw [if_pos hu]; exact Or.inl ⟨_, _, rfl⟩
  · rw [if_neg hu]; exact Or.inr ⟨_, _, rfl⟩

/-- A loop over pieces. -/
theorem takesAll_loop {A : Type} {R : Bytes → Prop} {step : Bytes → A → RM A} {b : Bytes} (h : Gen.Pieces R b)
    (hne : ∀ p, R p → p ≠ []) (N : Nat) (hN : b.length ≤ N)
    (hs : ∀ p acc, p.length ≤ N → R p → Takes T (fun b => step b acc) p) (acc : A) (fuel : Nat)
    (hf : b.length < fuel) : TakesAll T (fun b => whileNotEof (step b) fuel acc) b := by
  intro pre suf hl
  induction h generalizing pre acc fuel with
  | nil =>
    obtain ⟨fuel, rfl⟩ : ∃ k, fuel = k + 1 := ⟨fuel - 1, by omega⟩
    refine Or.inl ⟨acc, pre.length, ?_⟩
    have he : is_eof ⟨pre.length, pre.length + ([] : Bytes).length⟩ = true := by simp [is_eof]
    simp only [whileNotEof, SM.bind_run, SM.get_run]
    rw [if_pos he, SM.pure_run]
  | @cons p q hp _ ih =>
    obtain ⟨fuel, rfl⟩ : ∃ k, fuel = k + 1 := ⟨fuel - 1, by omega⟩
    have hpos := List.length_pos_iff.mpr (hne p hp)
    simp only [List.length_append] at hN hf
    have h1 := hs p acc (by omega) hp pre (q ++ suf) (pre.length + (p ++ q).length) (by simpa using hl) (by simp)
    have hneof : is_eof ⟨pre.length, pre.length + (p ++ q).length⟩ = false := by
      simp only [is_eof, List.length_append, beq_eq_false_iff_ne]; omega
    simp only [whileNotEof, SM.bind_run, SM.get_run, hneof, Bool.false_eq_true, if_false]
    rw [List.append_assoc p q suf]
    rcases h1 with ⟨a, h1⟩ | ⟨e, r', h1⟩
    · simp only [h1]
      have h2 := ih (by omega) a fuel (by omega) (pre ++ p) (by simpa using hl)
      simp only [List.append_assoc, List.length_append, Nat.add_assoc] at h2 ⊢
      exact h2
    · exact Or.inr ⟨e, r', by simp only [h1]⟩

end
end QP

namespace QP.Gen
open QP.Pbrs Spec BytesReader

section
variable {C : Ctx} {rd : MessageIndex → Bytes → RM RVal} {sub : MessageIndex → Bytes → Prop}

theorem takes_readTyp {t : FieldType} {p : Bytes}
    (hrd : ∀ m body, body.length < p.length → sub m body → TakesAll C.T (rd m) body)
    (h : IntactTyp sub t p) : Takes C.T (readTyp C rd t) p := by
  have hm : ∀ {α : Type} {q : Bytes → RM α} (f : α → RVal), Takes C.T q p →
      Takes C.T (fun b => do let x ← q b; pure (f x)) p := fun f hp => Takes.map hp f
  have e32 : p.length = 4 → Takes C.T (fun b => read_fixed C.T b 4 leRead32) p := fun h1 => by
    rw [← h1]; exact Takes.of (reads_fixed leRead32 p)
  have e64 : p.length = 8 → Takes C.T (fun b => read_fixed C.T b 8 leRead64) p := fun h1 => by
    rw [← h1]; exact Takes.of (reads_fixed leRead64 p)
  have v32 : IsVarint p → Takes C.T read_varint32 p := fun h => Takes.of (reads_isVarint32 h)
  have v64 : IsVarint p → Takes C.T read_varint64 p := fun h => Takes.of (reads_isVarint64 h)
  have str : (∃ body, Delimited p body) → Takes C.T (read_string C.T) p := fun ⟨body, h⟩ => takes_string h
  have byt : (∃ body, Delimited p body) → Takes C.T (read_bytes C.T) p := fun ⟨body, h⟩ => Takes.of (reads_getSelf h)
  cases t
  case int32 => exact hm RVal.w32 (v32 h)
  case int64 => exact hm RVal.w64 (v64 h)
  case uint32 => exact hm RVal.w32 (v32 h)
  case uint64 => exact hm RVal.w64 (v64 h)
  case sint32 => exact hm RVal.w32 (Takes.map (v32 h) (fun n : BitVec 32 => (n >>> 1) ^^^ (-(n &&& 1#32))))
  case sint64 => exact hm RVal.w64 (Takes.map (v64 h) (fun n : BitVec 64 => (n >>> 1) ^^^ (-(n &&& 1#64))))
  case bool => exact hm RVal.bool (Takes.map (v32 h) (fun n : BitVec 32 => n != 0#32))
  case enum e => exact hm RVal.w32 (Takes.map (v32 h) (enumFrom (C.enumNums e)))
  case fixed64 => exact hm RVal.w64 (e64 h)
  case sfixed64 => exact hm RVal.w64 (e64 h)
  case double => exact hm RVal.w64 (e64 h)
  case fixed32 => exact hm RVal.w32 (e32 h)
  case sfixed32 => exact hm RVal.w32 (e32 h)
  case float => exact hm RVal.w32 (e32 h)
  case stringCow => exact hm RVal.bytes (str h)
  case string_ => exact hm RVal.bytes (str h)
  case bytesCow => exact hm RVal.bytes (byt h)
  case bytes_ => exact hm RVal.bytes (byt h)
  case message m =>
    obtain ⟨body, h1, h2⟩ := h
    exact takes_delimited h1 (hrd m body h1.length h2)
  case messageOrEnum => exact h.elim
  case map => exact h.elim

theorem intactTyp_ne_nil {t : FieldType} {p : Bytes} (h : IntactTyp sub t p) : p ≠ [] := by
  have hd : ∀ body, Delimited p body → p ≠ [] := by
    intro body h hn
    have := h.length
    rw [hn] at this
    simp at this
  cases t <;> simp only [IntactTyp] at h
  all_goals first
    | exact IsVarint.ne_nil h
    | (intro hn; rw [hn] at h; simp at h; done)
    | (obtain ⟨body, h1, _⟩ := h; exact hd _ h1)
    | (obtain ⟨body, h1⟩ := h; exact hd _ h1)

theorem takes_armRead {a : Arm} {p : Bytes} {fuel : Nat}
    (hrd : ∀ m body, body.length < p.length → sub m body → TakesAll C.T (rd m) body)
    (hf : p.length ≤ fuel) (h : IntactArm sub a p) : Takes C.T (armRead C rd fuel a) p := by
  unfold IntactArm at h
  unfold armRead
  by_cases h0 : (a.choice.isSome || a.field.boxed) = true
  · simp only [h0, if_true] at h ⊢
    exact takes_readTyp hrd h
  simp only [h0, Bool.false_eq_true, if_false] at h ⊢
  cases hg : a.field.frequency.generated with
  | singular =>
    simp only [hg] at h ⊢
    exact takes_readTyp hrd h
  | arrayLike =>
    simp only [hg] at h ⊢
    by_cases hp : a.field.isPacked = true
    · simp only [hp, if_true] at h ⊢
      obtain ⟨body, hd, h⟩ := h
      have hbl := hd.length
      by_cases hfx : a.field.typ.isFixedSize = true
      · simp only [hfx, if_true]
        by_cases hw : a.field.typ.wireTypeNumNonPacked = 1
        · simp only [hw, if_true]
          obtain ⟨g, hg1, hg2, rfl⟩ := hd
          exact Takes.map (Takes.of (reads_packed_fixed_raw (MemTy.int C.T 8) (by simp [MemTy.int]) hg1 hg2)) RVal.pf64
        · simp only [hw, if_false]
          obtain ⟨g, hg1, hg2, rfl⟩ := hd
          exact Takes.map (Takes.of (reads_packed_fixed_raw (MemTy.int C.T 4) (by simp [MemTy.int]) hg1 hg2)) RVal.pf32
      · simp only [hfx, Bool.false_eq_true, if_false]
        refine Takes.map ?_ RVal.vec
        unfold read_packed
        have := takesAll_loop (T := C.T)
          (step := fun b acc => (do let m ← readTyp C rd a.field.typ b; pure (m :: acc))) (h (by simpa using hfx))
          (fun p => intactTyp_ne_nil) body.length (Nat.le_refl _) (fun q acc hq hu => Takes.map
            (takes_readTyp (fun m body hb => hrd m body (by omega)) hu) (fun m => m :: acc)) [] fuel (by omega)
        exact takes_delimited (p := fun b => (do
          let v ← whileNotEof (fun (acc : List RVal) => do let m ← readTyp C rd a.field.typ b; pure (m :: acc)) fuel []
          pure v.reverse)) hd (TakesAll.map this (fun v => v.reverse))
    · simp only [hp, Bool.false_eq_true, if_false] at h ⊢
      exact takes_readTyp hrd h
  | map =>
    simp only [hg] at h ⊢
    obtain ⟨k, v, body, ht, hd, hp⟩ := h
    have hbl := hd.length
    simp only [ht]
    refine Takes.map ?_ (fun kv => RVal.map [kv])
    unfold read_map
    refine takes_delimited hd (p := fun b => whileNotEof (fun (kv : RVal × RVal) => (do
        let t ← read_u8 b
        let n := t >>> 3
        if n = 1#8 then do
          let k ← readTyp C rd k b
          pure (k, kv.2)
        else if n = 2#8 then do
          let v ← readTyp C rd v b
          pure (kv.1, v)
        else SM.throw (.Map n))) fuel (typDefault C k, typDefault C v)) ?_
    refine takesAll_loop (T := C.T)
      (step := fun b (kv : RVal × RVal) => (do
        let t ← read_u8 b
        let n := t >>> 3
        if n = 1#8 then do
          let k ← readTyp C rd k b
          pure (k, kv.2)
        else if n = 2#8 then do
          let v ← readTyp C rd v b
          pure (kv.1, v)
        else SM.throw (.Map n))) hp ?_ body.length (Nat.le_refl _) ?_ _ fuel (by omega)
    · rintro q ⟨t, q', rfl, _⟩; simp
    · rintro q kv hq ⟨t, q', rfl, hu⟩
      refine Takes.after (T := C.T) (p := read_u8) (a := t) (x := [t]) (ReadsAs.u8 t) ?_ (q := fun t b => (
        let n := t >>> 3
        if n = 1#8 then do
          let k ← readTyp C rd k b
          pure (k, kv.2)
        else if n = 2#8 then do
          let v ← readTyp C rd v b
          pure (kv.1, v)
        else SM.throw (.Map n)))
      simp only [List.length_cons] at hq
      rcases hu with ⟨h1, h3⟩ | ⟨h1, h3⟩ | ⟨h1, h2⟩
      · simp only [(tag_shift t 1 (by omega)).mpr h1, if_true]
        exact Takes.map (takes_readTyp (fun m body hb => hrd m body (by omega)) h3) (fun k => (k, kv.2))
      · simp only [(tag_shift t 2 (by omega)).mpr h1, if_true]
        simp only [show ¬ (2#8 = 1#8) by decide, if_false]
        exact Takes.map (takes_readTyp (fun m body hb => hrd m body (by omega)) h3) (fun v => (kv.1, v))
      · have n1 : ¬ t >>> 3 = 1#8 := fun h => h1 ((tag_shift t 1 (by omega)).mp h)
        have n2 : ¬ t >>> 3 = 2#8 := fun h => h2 ((tag_shift t 2 (by omega)).mp h)
        simp only [n1, n2, if_false]
        exact Takes.throw _ _

theorem takes_unknown {T : Target} {t : BitVec 32} {p : Bytes}
    (h : Payload (t.toNat % 8) p ∨ t.toNat % 8 ∈ [3, 4, 6, 7]) : Takes T (fun b => read_unknown T b t) p := by
  rcases h with h | h
  · exact Takes.of (C15_unknown_skipped T t p h)
  · have hk : ∀ k : Nat, k < 8 → t.toNat % 8 ≠ k → ((t &&& 0x7#32).setWidth 8 : Byte) ≠ BitVec.ofNat 8 k := by
      intro k hk hne he
      exact hne ((wireType_is hk).mp he)
    have hne : ∀ k, k ∈ [0, 1, 5, 2] → ((t &&& 0x7#32).setWidth 8 : Byte) ≠ BitVec.ofNat 8 k := by
      intro k hk'
      refine hk k ?_ ?_
      · simp only [List.mem_cons, List.not_mem_nil, or_false] at hk'; omega
      · simp only [List.mem_cons, List.not_mem_nil, or_false] at hk' h; omega
    unfold read_unknown
    simp only [show ¬ ((t &&& 0x7#32).setWidth 8 : Byte) = 0#8 from hne 0 (by simp),
      show ¬ ((t &&& 0x7#32).setWidth 8 : Byte) = 1#8 from hne 1 (by simp),
      show ¬ ((t &&& 0x7#32).setWidth 8 : Byte) = 5#8 from hne 5 (by simp),
      show ¬ ((t &&& 0x7#32).setWidth 8 : Byte) = 2#8 from hne 2 (by simp), if_false]
    split <;> exact Takes.throw _ _

theorem takes_msgStep {m : Message} (hok : MessageOk C.cfg m) {r : Bytes} {fuel : Nat}
    (hrd : ∀ m body, body.length < r.length → sub m body → TakesAll C.T (rd m) body)
    (hf : r.length ≤ fuel) (slots : List RVal) (h : IntactRecord C sub m r) :
    Takes C.T (fun b => msgStep C rd fuel (arms C.cfg m) b slots) r := by
  obtain ⟨g, p, hg, rfl, h⟩ := h
  have hlen : p.length ≤ (g ++ p).length := by simp
  unfold msgStep
  refine Takes.after (reads_isVarint32 hg) ?_ (q := fun t b =>
    (match (arms C.cfg m).find? (fun a => a.field.tag == t) with
      | Option.some a => do
        let v ← armRead C rd fuel a b
        pure (setSlot a.slot (fun old => armApply a old v) slots)
      | Option.none => do
        read_unknown C.T b t
        pure slots))
  rcases h with ⟨a, ha, h1, h2⟩ | ⟨h1, h2⟩
  · simp only [find_arm hok ha ((fieldTag_lt hok ha _).mp h1)]
    exact Takes.map (takes_armRead (fun m body hb => hrd m body (by omega)) (by omega) h2) _
  · have : (arms C.cfg m).find? (fun a => a.field.tag == BitVec.ofNat 32 (varintVal g)) = Option.none := by
      rw [List.find?_eq_none]
      intro a ha
      simp only [beq_iff_eq]
      intro ht
      exact h1 a ha ((fieldTag_lt hok ha _).mpr ht)
    simp only [this]
    refine Takes.map (takes_unknown ?_) _
    rw [BitVec.toNat_ofNat, Nat.mod_mod_of_dvd _ (by decide)]
    exact h2

end

/-- Complete bytes of a message are decoded, or rejected with an error. -/
theorem takes_fromReader {C : Ctx} (hS : SchemaOk C) (n : Nat) (idx : MessageIndex) (b : Bytes)
    (h : IntactMsg C n idx b) (k : Nat) (hk : b.length < k) : TakesAll C.T (fromReader C k idx) b := by
  induction n generalizing idx b k with
  | zero => exact h.elim
  | succ n ih =>
    obtain ⟨m, hm, h⟩ := h
    obtain ⟨k, rfl⟩ : ∃ j, k = j + 1 := ⟨k - 1, by omega⟩
    cases hu : m.isUnit
    · rw [fromReader_msg k hm hu]
      rw [hu] at h
      rcases h with h | h
      · cases h
      · refine TakesAll.map ?_ RVal.struct
        refine takesAll_loop (step := fun b => msgStep C (fromReader C k) (k + 1) (arms C.cfg m) b) h ?_ b.length
          (Nat.le_refl _) ?_ _ _ hk
        · rintro p ⟨g, q, hg, rfl, _⟩
          simp [IsVarint.ne_nil hg]
        · intro p acc hp hR
          exact takes_msgStep (hS idx m hm) (fun m' body hb hd => ih m' body hd k (by omega)) (by omega) acc hR
    · rw [fromReader_unit k hm hu]
      intro pre suf hl
      simp only [read_to_end, SM.bind_run, SM.get_run, SM.set_run, SM.pure_run]
      exact Or.inl ⟨_, _, rfl⟩


/-! ## The top level -/

section
variable {C : Ctx}

theorem decMsg_target (T : Target) : ∀ n idx, DecMsg { C with T := T } n idx = DecMsg C n idx := by
  have dt : ∀ sub, DecTyp { C with T := T } sub = DecTyp C sub := fun sub => by funext t p x; cases t <;> rfl
  have td : ∀ t, typDefault { C with T := T } t = typDefault C t := fun t => by cases t <;> rfl
  intro n
  induction n with
  | zero => intro idx; rfl
  | succ n ih =>
    intro idx; funext b v
    have e : DecMsg { C with T := T } n = DecMsg C n := funext ih
    have ep : ∀ k v, DecPart { C with T := T } (DecMsg C n) k v = DecPart C (DecMsg C n) k v := by
      intro k v; funext p u; unfold DecPart; rw [dt]
    have ea : ∀ a, DecArm { C with T := T } (DecMsg C n) a = DecArm C (DecMsg C n) a := by
      intro a; funext p x; unfold DecArm; rw [dt]; simp only [ep, td]
    have er : ∀ m, Record { C with T := T } (DecMsg C n) m = Record C (DecMsg C n) m := by
      intro m; funext r u; unfold Record; simp only [ea]
    show (∃ m, _ ∧ _) = (∃ m, _ ∧ _)
    unfold Merges
    rw [e]
    simp only [er]

theorem record_target (T : Target) (m : Message) :
    Record { C with T := T } (Denotes { C with T := T }) m = Record C (Denotes C) m := by
  have dt : ∀ sub, DecTyp { C with T := T } sub = DecTyp C sub := fun sub => by funext t p x; cases t <;> rfl
  have td : ∀ t, typDefault { C with T := T } t = typDefault C t := fun t => by cases t <;> rfl
  have e : Denotes { C with T := T } = Denotes C := by
    funext idx b v; unfold Denotes; simp only [decMsg_target]
  have ep : ∀ k v, DecPart { C with T := T } (Denotes C) k v = DecPart C (Denotes C) k v := by
    intro k v; funext p u; unfold DecPart; rw [dt]
  have ea : ∀ a, DecArm { C with T := T } (Denotes C) a = DecArm C (Denotes C) a := by
    intro a; funext p x; unfold DecArm; rw [dt]; simp only [ep, td]
  rw [e]
  funext r u; unfold Record; simp only [ea]

theorem intact_target (T : Target) : Intact { C with T := T } = Intact C := by
  have : ∀ n idx, IntactMsg { C with T := T } n idx = IntactMsg C n idx := by
    intro n
    induction n with
    | zero => intro idx; rfl
    | succ n ih =>
      intro idx; funext b
      have e : IntactMsg { C with T := T } n = IntactMsg C n := funext ih
      show (∃ m, _ ∧ _) = (∃ m, _ ∧ _)
      rw [e]
      rfl
  funext idx b
  unfold Intact
  simp only [this]

theorem nestedIntact_target (T : Target) (idx : MessageIndex) (b : Bytes) (h : NestedIntact C idx b) :
    NestedIntact { C with T := T } idx b := by
  intro m hm pre us g q a hb hp
  rw [record_target] at hp
  rw [intact_target]
  exact h m hm pre us g q a hb hp

/-- With overflow checks: from a position `s0` on, up to the end of the buffer. -/
theorem safe_checked (hT : C.T.overflowChecks = true) (hS : SchemaOk C) (idx : MessageIndex) {b : Bytes}
    (hR : Roomy C.T b) (s0 : Nat) (hs0 : s0 ≤ b.length) (hm : (C.D.getMessage idx).isSome = true)
    (hN : NestedIntact C idx (slice b s0 b.length)) (fuel : Nat) (hf : b.length < fuel) :
    (∃ v, fromReader C fuel idx b ⟨s0, b.length⟩ = (.ok v, ⟨b.length, b.length⟩)) ∨
      (∃ e r', fromReader C fuel idx b ⟨s0, b.length⟩ = (.err e, r')) := by
  obtain ⟨n, rfl⟩ : ∃ k, fuel = k + 1 := ⟨fuel - 1, by omega⟩
  obtain ⟨m, hm⟩ := Option.isSome_iff_exists.mp hm
  cases hu : m.isUnit
  case true =>
    rw [fromReader_unit n hm hu]
    simp only [read_to_end, SM.bind_run, SM.get_run, SM.set_run, SM.pure_run]
    exact Or.inl ⟨_, rfl⟩
  rw [fromReader_msg n hm hu]
  have hsub : ∀ m' body, body.length < n → Intact C m' body → TakesAll C.T (fromReader C n m') body :=
    fun m' body hb ⟨d, hd⟩ => takes_fromReader hS d m' body hd n hb
  have hdec : ∀ slots, Dec C.T (fun b => msgStep C (fromReader C n) (n + 1) (arms C.cfg m) b slots)
      (fun x slots' => ∃ u, Record C (Denotes C) m x u ∧ slots' = u.elim slots (applyItem slots)) := fun slots =>
    dec_msgStep hT (fun m' => (dec_fromReader hT hS n m').imp fun x a h => ⟨n, h⟩) (n + 1) (hS idx m hm) slots
  have hRl : b.length < 2 ^ C.T.usizeBits := by have := hR; unfold Roomy at this; omega
  have step : ∀ s acc us, s0 ≤ s → s ≤ b.length → Parses (Record C (Denotes C) m) (slice b s0 s) us →
      (∃ a s', msgStep C (fromReader C n) (n + 1) (arms C.cfg m) b acc ⟨s, b.length⟩ = (.ok a, ⟨s', b.length⟩) ∧
        s < s' ∧ s' ≤ b.length ∧ ∃ us', Parses (Record C (Denotes C) m) (slice b s0 s') us') ∨
      (∃ e r', msgStep C (fromReader C n) (n + 1) (arms C.cfg m) b acc ⟨s, b.length⟩ = (.err e, r')) := by
    intro s acc us h0 hs hpre
    have hr : InRange b ⟨s, b.length⟩ := ⟨by simp only; omega, by simp only; omega⟩
    have key : (∃ a s', msgStep C (fromReader C n) (n + 1) (arms C.cfg m) b acc ⟨s, b.length⟩ = (.ok a, ⟨s', b.length⟩) ∧
        s < s' ∧ s' ≤ b.length) ∨
        (∃ e r', msgStep C (fromReader C n) (n + 1) (arms C.cfg m) b acc ⟨s, b.length⟩ = (.err e, r')) := by
      unfold msgStep
      rcases Steps.varint32 (T := C.T) b ⟨s, b.length⟩ hR hr with ⟨t, s1, h1, h2, h3⟩ | ⟨e, r', h1⟩
      · obtain ⟨hg, ht⟩ := Dec.read_varint32.sound b s b.length t _ hR hr h1 h3
        simp only at h1 h2 hg ht
        simp only [next_tag]
        rw [SM.bind_ok h1]
        have key : AtEnd b s1 (match (arms C.cfg m).find? (fun a => a.field.tag == t) with
            | Option.some a => do
              let v ← armRead C (fromReader C n) (n + 1) a b
              pure (setSlot a.slot (fun old => armApply a old v) acc)
            | Option.none => do
              read_unknown C.T b t
              pure acc) := by
          cases hf' : (arms C.cfg m).find? (fun a => a.field.tag == t) with
          | none => exact (atEnd_unknown t hR h3).map (fun _ => acc)
          | some a =>
            have ha := List.mem_of_find?_eq_some hf'
            have hta : a.field.tag = t := by simpa using List.find?_some hf'
            refine AtEnd.map ?_ (fun v => setSlot a.slot (fun old => armApply a old v) acc)
            by_cases hfl : FlatArm a
            · exact atEnd_armRead hfl hR h3 hf
            · obtain ⟨p, rest, hq, hi⟩ := hN m hm (slice b s0 s) us (slice b s s1) (slice b s1 b.length) a
                (by rw [← slice_append h0 (by omega), ← slice_append (by omega) h3]) hpre hg ha
                ((fieldTag_lt (hS idx m hm) ha _).mpr (hta.trans ht)) hfl
              have hb : b = slice b 0 s1 ++ (p ++ rest) := by
                rw [← hq, ← slice_append (by omega) h3, slice_all]
              have hl1 : (slice b 0 s1).length = s1 := by rw [slice_length h3]; omega
              have hlq : (p ++ rest).length = b.length - s1 := by rw [← hq, slice_length (Nat.le_refl _)]
              simp only [List.length_append] at hlq
              have := takes_armRead (C := C) (rd := fromReader C n) (fuel := n + 1)
                (fun m' body hb h => hsub m' body (by omega) h) (by omega) hi (slice b 0 s1) rest b.length
                (by rw [← hb]; exact hRl) (by omega)
              rw [← hb, hl1] at this
              rcases this with ⟨v, hv⟩ | hv
              · exact Or.inl ⟨v, _, hv, by omega, by omega⟩
              · exact Or.inr hv
        rcases key with ⟨a, s', k1, k2, k3⟩ | k
        · exact Or.inl ⟨a, s', k1, by omega, k3⟩
        · exact Or.inr k
      · exact Or.inr ⟨e, r', SM.bind_err h1⟩
    rcases key with ⟨a, s', h1, h2, h3⟩ | h
    · obtain ⟨u, hu, _⟩ := (hdec acc).sound b s b.length a _ hR hr h1 h3
      refine Or.inl ⟨a, s', h1, h2, h3, us ++ [u], ?_⟩
      rw [slice_append h0 (Nat.le_of_lt h2)]
      refine hpre.append ?_
      have := Parses.cons hu Parses.nil
      simpa using this
    · exact Or.inr h
  have loop : ∀ k acc s us, s0 ≤ s → s ≤ b.length → Parses (Record C (Denotes C) m) (slice b s0 s) us →
      b.length - s < k →
      (∃ a, whileNotEof (msgStep C (fromReader C n) (n + 1) (arms C.cfg m) b) k acc ⟨s, b.length⟩
        = (.ok a, ⟨b.length, b.length⟩)) ∨
      (∃ e r', whileNotEof (msgStep C (fromReader C n) (n + 1) (arms C.cfg m) b) k acc ⟨s, b.length⟩
        = (.err e, r')) := by
    intro k
    induction k with
    | zero => intro _ _ _ _ _ _ h; omega
    | succ k ih =>
      intro acc s us h0 hs hpre hk
      simp only [BytesReader.whileNotEof, SM.bind_run, SM.get_run]
      by_cases he : is_eof ⟨s, b.length⟩ = true
      · rw [if_pos he]
        have he : s = b.length := by simpa [is_eof] using he
        exact Or.inl ⟨acc, by rw [SM.pure_run, he]⟩
      · rw [if_neg he]
        rcases step s acc us h0 hs hpre with ⟨a, s', h1, h2, h3, us', h4⟩ | ⟨e, r', h1⟩
        · rw [SM.bind_ok h1]
          exact ih a s' us' (by omega) h3 h4 (by omega)
        · exact Or.inr ⟨e, r', SM.bind_err h1⟩
  rcases loop (n + 1) (C.dflt idx).slots s0 [] (Nat.le_refl _) hs0 (by rw [slice_self]; exact Parses.nil) (by omega) with
    ⟨a, h⟩ | ⟨e, r', h⟩
  · exact Or.inl ⟨_, SM.bind_ok h⟩
  · exact Or.inr ⟨e, r', SM.bind_err h⟩

/-- The same in both profiles. -/
theorem safe_any (hS : SchemaOk C) (idx : MessageIndex) {b : Bytes}
    (hR : Roomy C.T b) (s0 : Nat) (hs0 : s0 ≤ b.length) (hm : (C.D.getMessage idx).isSome = true)
    (hN : NestedIntact C idx (slice b s0 b.length)) (fuel : Nat) (hf : b.length < fuel) :
    (∃ v, fromReader C fuel idx b ⟨s0, b.length⟩ = (.ok v, ⟨b.length, b.length⟩)) ∨
      (∃ e r', fromReader C fuel idx b ⟨s0, b.length⟩ = (.err e, r')) := by
  cases hT : C.T.overflowChecks with
  | true => exact safe_checked hT hS idx hR s0 hs0 hm hN fuel hf
  | false =>
    have hC : ({ C with T := { C.T with overflowChecks := true } } : Ctx).unchecked = C := by
      show ({ C with T := { C.T with overflowChecks := false } } : Ctx) = C
      rw [← hT]
    have h := safe_checked (C := { C with T := { C.T with overflowChecks := true } }) rfl hS idx hR s0 hs0 hm
      (nestedIntact_target _ idx _ hN) fuel hf
    have hne : (fromReader { C with T := { C.T with overflowChecks := true } } fuel idx b ⟨s0, b.length⟩).1 ≠ .panic := by
      rcases h with ⟨v, h⟩ | ⟨e, r', h⟩ <;> rw [h] <;> simp
    have he := (C83_decode { C with T := { C.T with overflowChecks := true } } idx fuel b).1 _ hne
    rw [hC] at he
    rw [he]
    exact h

/-- **C22** and **C23**, partial: for every schema and every message of it, in both profiles: if the nested messages
of the input are complete (`NestedIntact`: the input itself may break off anywhere or be garbage, and no
contents need to be valid) then `from_reader` over the whole buffer returns `Ok` or `Err`: no panic, no
out-of-bounds access, and it terminates. The same for `deserialize_from_slice` when the length prefix is the
number of bytes that follow. So a decoder panics or diverges only if a nested message (or the message as a
whole) declares a length that runs over the end of the input or cuts a field in two.
Missing: such inputs, where it is false (`C22_slice_panic`, `C22_underflow_panic`, `C22_framed_panic`,
`C23_release_diverges`). -/
theorem C22_nested_safe_partial (C : Ctx) (hS : SchemaOk C) (idx : MessageIndex)
    (hm : (C.D.getMessage idx).isSome = true) (bytes : Bytes) (hR : Roomy C.T bytes) (fuel : Nat)
    (hf : bytes.length < fuel) :
    (NestedIntact C idx bytes →
      (∃ v, (fromReader C fuel idx bytes (from_bytes bytes)).1 = .ok v) ∨
      (∃ e, (fromReader C fuel idx bytes (from_bytes bytes)).1 = .err e)) ∧
    (∀ g body, IsVarint g → bytes = g ++ body → varintVal g % 2 ^ 32 = body.length → NestedIntact C idx body →
      (∃ v, deserialize_from_slice C.T (fromReader C fuel idx) bytes = .ok v) ∨
      (∃ e, deserialize_from_slice C.T (fromReader C fuel idx) bytes = .err e)) := by
  refine ⟨fun hN => ?_, fun g body hg hb hl hN => ?_⟩
  · rcases safe_any hS idx hR 0 (Nat.zero_le _) hm (by rw [slice_all]; exact hN) fuel hf with ⟨v, h⟩ | ⟨e, r', h⟩
    · exact Or.inl ⟨v, by unfold from_bytes; rw [h]⟩
    · exact Or.inr ⟨e, by unfold from_bytes; rw [h]⟩
  · have hbl : bytes.length = g.length + body.length := by rw [hb, List.length_append]
    have hs : slice bytes g.length bytes.length = body := by
      unfold slice
      rw [hbl, hb, List.drop_left]
      simp
    have hRl : bytes.length < 2 ^ C.T.usizeBits := by have := hR; unfold Roomy at this; omega
    have h1 := reads_isVarint32 (T := C.T) hg [] body bytes.length (by rw [List.nil_append, ← hb]; exact hRl)
      (by simp only [List.length_nil]; omega)
    simp only [List.nil_append, List.length_nil, Nat.zero_add, ← hb] at h1
    unfold deserialize_from_slice read_message read_len_varint from_bytes
    rw [SM.bind_ok h1]
    rw [show (BitVec.ofNat 32 (varintVal g)).toNat = body.length by rw [BitVec.toNat_ofNat, hl]]
    simp only [read_len, SM.bind_run, SM.get_run, SM.lift_run,
      usizeAdd_ok (T := C.T) (a := g.length) (b := body.length) (by omega), SM.set_run]
    rw [← hbl]
    rcases safe_any hS idx hR g.length (by omega) hm (by rw [hs]; exact hN) fuel hf with ⟨v, h⟩ | ⟨e, r', h⟩
    · exact Or.inl ⟨v, by simp only [h, SM.pure_run]⟩
    · exact Or.inr ⟨e, by simp only [h]⟩

end

/-- The hypothesis of **C22** is met by inputs that do not decode: a nested `Node`, complete, and then a string
that breaks off. (The decoder rejects it.) -/
theorem nestedIntact_example (T : Target) :
    NestedIntact (Example.ctx T) [0] [0x3a#8, 2#8, 0x08#8, 1#8, 0x12#8, 5#8, 0x61#8] := by
  intro m hm pre us g q a hb _ hg ha ht hfl
  obtain ⟨_, rfl⟩ := Example.get_node T _ m hm
  obtain ⟨conts, x, rfl, _, hc, hx⟩ := hg
  have hall : ∀ y ∈ [0x3a#8, 2#8, 0x08#8, 1#8, 0x12#8, 5#8, 0x61#8], lastByte y = true := by decide
  have hc0 : conts = [] := by
    cases conts with
    | nil => rfl
    | cons y ys =>
      have h1 := hc y (by simp)
      have h2 := hall y (by rw [hb]; simp)
      rw [h1] at h2; cases h2
  subst hc0
  have harm : a = ⟨6, Example.fChild, Option.none⟩ := by
    have : a ∈ arms {} Example.node := ha
    rw [show arms {} Example.node = [⟨0, Example.fId, Option.none⟩, ⟨1, Example.fName, Option.none⟩,
      ⟨2, Example.fXs, Option.none⟩, ⟨3, Example.fYs, Option.none⟩, ⟨4, Example.fTags, Option.none⟩,
      ⟨5, Example.fProps, Option.none⟩, ⟨6, Example.fChild, Option.none⟩, ⟨7, Example.fW, Option.none⟩,
      ⟨8, Example.fKind, Option.none⟩, ⟨9, Example.fA, Option.some 0⟩, ⟨9, Example.fB, Option.some 1⟩] from rfl] at this
    simp only [List.mem_cons, List.not_mem_nil, or_false] at this
    rcases this with rfl | rfl | rfl | rfl | rfl | rfl | rfl | rfl | rfl | rfl | rfl
    case inr.inr.inr.inr.inr.inl =>
      exact absurd (Or.inr ⟨.stringCow, .int32, rfl, trivial, trivial, rfl, rfl, rfl⟩) hfl
    all_goals first
      | rfl
      | exact absurd (Or.inl ⟨trivial, fun _ h => by cases h⟩) hfl
  subst harm
  have ht : 0x3a = varintVal [x] % 2 ^ 32 := ht
  have hx3 : x = 0x3a#8 := by
    have h7 : ∀ x : Byte, 0x3a = varintVal [x] % 2 ^ 32 → lastByte x = true → x = 0x3a#8 := by decide +kernel
    exact h7 x ht hx
  subst hx3
  have hpre : pre = [] := by
    cases pre with
    | nil => rfl
    | cons y ys =>
      simp only [List.nil_append, List.cons_append, List.cons.injEq] at hb
      have : 0x3a#8 ∈ [2#8, 0x08#8, 1#8, 0x12#8, 5#8, 0x61#8] := by rw [hb.2]; simp
      exact absurd this (by decide)
  subst hpre
  simp only [List.nil_append, List.cons_append, List.cons.injEq, true_and] at hb
  refine ⟨[2#8, 0x08#8, 1#8], [0x12#8, 5#8, 0x61#8], hb.symm, ?_⟩
  have hv : ∀ x : Byte, lastByte x = true → IsVarint [x] := fun x h => ⟨[], x, rfl, by simp, by simp, h⟩
  refine ⟨[0x08#8, 1#8], ⟨[2#8], hv _ (by decide), by decide, rfl⟩, 1, Example.node, rfl, Or.inr ?_⟩
  refine Pieces.cons (p := [0x08#8, 1#8]) (q := []) ⟨[0x08#8], [1#8], hv _ (by decide), rfl, Or.inl
    ⟨⟨0, Example.fId, Option.none⟩, ?_, by decide, hv _ (by decide)⟩⟩ Pieces.nil
  show _ ∈ arms {} Example.node
  rw [show arms {} Example.node = ⟨0, Example.fId, Option.none⟩ :: (arms {} Example.node).tail from rfl]
  exact List.mem_cons_self

end QP.Gen
