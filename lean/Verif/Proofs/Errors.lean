import Verif.Spec.Errors
import Verif.Props.Varint
import Verif.Proofs.Utf8
set_option linter.unusedVariables false
/-!
# Errors of the decoder (proofs)
-/

namespace QP.Gen
open QP.Pbrs Spec BytesReader

/-- All errors of `p` satisfy `E`. -/
def Fails {α : Type} (E : Error → Prop) (p : RM α) : Prop := ∀ r e r', p r = (.err e, r') → E e

section
variable {E : Error → Prop} {α β : Type}

theorem fails_pure (a : α) : Fails E (Pure.pure a : RM α) := fun r e r' h => by cases h

theorem fails_lift {o : Out α} (h : ∀ e, o ≠ .err e) : Fails E (SM.lift o : RM α) := fun r e r' hr => by
  have : o = .err e := congrArg Prod.fst hr
  exact (h e this).elim

theorem fails_get : Fails E (SM.get : RM BytesReader) := fun r e r' h => by cases h

theorem fails_set (s : BytesReader) : Fails E (SM.set s : RM Unit) := fun r e r' h => by cases h

theorem fails_throw {x : Error} (h : E x) : Fails E (SM.throw x : RM α) := fun r e r' hr => by
  have : Out.err x = Out.err (α := α) e := congrArg Prod.fst hr
  cases this
  exact h

theorem fails_okOr {o : Option α} {x : Error} (h : E x) : Fails E (SM.okOr o x : RM α) := fun r e r' hr => by
  cases o with
  | some a => cases hr
  | none =>
    have : Out.err x = Out.err (α := α) e := congrArg Prod.fst hr
    cases this
    exact h

theorem fails_bind' {p : RM α} {f : α → RM β} (hp : Fails E p) (hf : ∀ r a r', p r = (.ok a, r') → Fails E (f a)) : Fails E (p >>= f) := by
  intro r e r' h
  have h : SM.bind p f r = (.err e, r') := h
  unfold SM.bind at h
  cases hpr : p r with
  | mk o s =>
    rw [hpr] at h
    cases o with
    | ok a => exact hf r a s hpr s e r' h
    | err x => cases h; exact hp r _ _ hpr
    | panic => cases h
    | ub => cases h
    | timeout => cases h

theorem fails_bind {p : RM α} {f : α → RM β} (hp : Fails E p) (hf : ∀ a, Fails E (f a)) : Fails E (p >>= f) :=
  fails_bind' hp fun _ a _ _ => hf a

theorem fails_add (T : Target) (a b : Nat) : Fails E (SM.lift (T.usizeAdd a b) : RM Nat) :=
  fails_lift fun e h => by unfold Target.usizeAdd at h; split at h <;> (try split at h) <;> cases h

theorem fails_sub (T : Target) (a b : Nat) : Fails E (SM.lift (T.usizeSub a b) : RM Nat) :=
  fails_lift fun e h => by unfold Target.usizeSub at h; split at h <;> (try split at h) <;> cases h

theorem fails_while {A : Type} {step : A → RM A} (h : ∀ a, Fails E (step a)) : ∀ (fuel : Nat) (a : A), Fails E (whileNotEof step fuel a)
  | 0, a => fails_lift fun e he => by cases he
  | fuel + 1, a => by
    rw [whileNotEof]
    refine fails_bind fails_get fun r => ?_
    split
    · exact fails_pure _
    · exact fails_bind (h a) fun a => fails_while h fuel a

theorem fails_read_len {T : Target} {read : RM α} (h : Fails E read) (n : Nat) : Fails E (read_len T read n) := by
  unfold read_len
  exact fails_bind fails_get fun r => fails_bind (fails_add _ _ _) fun _ => fails_bind (fails_set _) fun _ => fails_bind h fun _ =>
    fails_bind fails_get fun _ => fails_bind (fails_set _) fun _ => fails_pure _

end

section
variable {C : Ctx} {bytes : Bytes}

theorem fails_u8 : Fails (Reason C bytes) (read_u8 bytes) := by
  unfold read_u8
  exact fails_bind fails_get fun r => fails_bind (fails_okOr trivial) fun _ => fails_bind (fails_set _) fun _ => fails_pure _

/-- A varint that is read is there. -/
theorem read_varint64_cases (bytes : Bytes) (r : BytesReader) :
    (∃ k n, VarintAt bytes r.start k n ∧ read_varint64 bytes r = (.ok (BitVec.ofNat 64 n), ⟨r.start + k, r.fin⟩)) ∨
    ((∃ conts rest, bytes.drop r.start = conts ++ rest ∧ conts.length = 10 ∧ ∀ c ∈ conts, lastByte c = false) ∧
      (read_varint64 bytes r).1 = .err .Varint) ∨ (read_varint64 bytes r).1 = .err .UnexpectedEndOfBuffer := by
  obtain ⟨conts, hc, ⟨b, rest, h1, h2, h3⟩ | ⟨rest, h1, h2⟩ | ⟨h1, h2⟩⟩ := C04_exhaustive (bytes.drop r.start)
  · refine Or.inl ⟨conts.length + 1, _, ⟨conts, b, rest, h1, hc, h3, rfl, by omega, rfl⟩, ?_⟩
    exact (C04_read_varint64_spec bytes r conts rest hc).1 b h1 h2 h3
  · refine Or.inr (Or.inl ⟨⟨conts, rest, h1, h2, hc⟩, ?_⟩)
    rw [(C04_read_varint64_spec bytes r conts rest hc).2.1 h1 h2]
  · refine Or.inr (Or.inr ?_)
    rw [(C04_read_varint64_spec bytes r conts [] hc).2.2 h1 h2]

theorem fails_varint64 : Fails (Reason C bytes) (read_varint64 bytes) := by
  intro r e r' h
  rcases read_varint64_cases bytes r with ⟨k, n, _, h1⟩ | ⟨h0, h1⟩ | h1
  · rw [h1] at h; cases h
  · rw [h] at h1; cases h1; exact Or.inl ⟨_, h0⟩
  · rw [h] at h1; cases h1; trivial

theorem read_varint32_ok {r r' : BytesReader} {x : BitVec 32} (h : read_varint32 bytes r = (.ok x, r')) :
    ∃ k n, VarintAt bytes r.start k n ∧ x.toNat = n % 2 ^ 32 ∧ r' = ⟨r.start + k, r.fin⟩ := by
  obtain ⟨h2, h3, h4, h5⟩ := C05_varint32_truncates bytes r
  rcases read_varint64_cases bytes r with ⟨k, n, hv, h1⟩ | ⟨h0, h1⟩ | h1
  · have := h3 _ (by rw [h1])
    rw [h] at this h2
    cases this
    refine ⟨k, n, hv, ?_, by rw [h1] at h2; exact h2⟩
    rw [BitVec.toNat_setWidth, BitVec.toNat_ofNat]
    omega
  · have := h4 _ h1; rw [h] at this; cases this
  · have := h4 _ h1; rw [h] at this; cases this

theorem fails_varint32 : Fails (Reason C bytes) (read_varint32 bytes) := by
  intro r e r' h
  obtain ⟨h2, h3, h4, h5⟩ := C05_varint32_truncates bytes r
  rcases read_varint64_cases bytes r with ⟨k, n, _, h1⟩ | ⟨h0, h1⟩ | h1
  · have := h3 _ (by rw [h1]); rw [h] at this; cases this
  · have := h4 _ h1; rw [h] at this; cases this; exact Or.inl ⟨_, h0⟩
  · have := h4 _ h1; rw [h] at this; cases this; trivial

theorem fails_len_varint {α : Type} {T : Target} {read : RM α} (h : Fails (Reason C bytes) read) : Fails (Reason C bytes) (read_len_varint T bytes read) := by
  unfold read_len_varint
  exact fails_bind fails_varint32 fun n => fails_read_len h _

theorem fails_self : Fails (Reason C bytes) (getSelf bytes) := by
  unfold getSelf
  exact fails_bind fails_get fun r => fails_okOr trivial

theorem fails_fixed {M : Type} {T : Target} {len : Nat} {read : Bytes → M} : Fails (Reason C bytes) (read_fixed T bytes len read) := by
  unfold read_fixed
  exact fails_bind fails_get fun r => fails_bind (fails_add _ _ _) fun _ => fails_bind (fails_okOr trivial) fun _ => fails_bind (fails_set _) fun _ => fails_pure _

theorem fails_string (hS : Uses C (fun t => t = .stringCow ∨ t = .string_)) (hU : 32 ≤ C.T.usizeBits) (hL : bytes.length < 2 ^ C.T.usizeBits) :
    Fails (Reason C bytes) (read_string C.T bytes) := by
  intro r e r' h
  have h : SM.bind (read_varint32 bytes) (fun len => read_len C.T (getSelf bytes >>= fun x => if utf8Ok x then Pure.pure x else SM.throw .Utf8) len.toNat) r = (.err e, r') := h
  unfold SM.bind at h
  cases hp : read_varint32 bytes r with
  | mk o s =>
    rw [hp] at h
    cases o with
    | err x => cases h; exact fails_varint32 r _ _ hp
    | panic => cases h
    | ub => cases h
    | timeout => cases h
    | ok n =>
      obtain ⟨k, m, hv, hnm, rfl⟩ := read_varint32_ok hp
      dsimp only at h
      have h : SM.bind (SM.lift (C.T.usizeAdd (r.start + k) n.toNat)) (fun fin => SM.set ⟨r.start + k, fin⟩ >>= fun _ =>
        (getSelf bytes >>= fun x => if utf8Ok x then Pure.pure x else SM.throw .Utf8) >>= fun v => SM.get >>= fun r' => SM.set ⟨r'.fin, r.fin⟩ >>= fun _ => Pure.pure v)
        ⟨r.start + k, r.fin⟩ = (.err e, r') := h
      unfold SM.bind at h
      cases hadd : C.T.usizeAdd (r.start + k) n.toNat with
      | err x => exact ((fails_add (E := fun _ => False) C.T (r.start + k) n.toNat) ⟨0, 0⟩ x ⟨0, 0⟩ (by rw [hadd]; rfl)).elim
      | panic => simp only [SM.lift, hadd] at h; cases h
      | ub => simp only [SM.lift, hadd] at h; cases h
      | timeout => simp only [SM.lift, hadd] at h; cases h
      | ok fin =>
        simp only [SM.lift, hadd] at h
        cases hg : getRange bytes (r.start + k) fin with
        | none =>
          have h : (Out.err .UnexpectedEndOfBuffer, (⟨r.start + k, fin⟩ : BytesReader)) = ((Out.err e : Out Bytes), r') := by
            rw [← h]
            have hgs : getSelf bytes ⟨r.start + k, fin⟩ = (.err .UnexpectedEndOfBuffer, ⟨r.start + k, fin⟩) := by
              change SM.okOr (getRange bytes (r.start + k) fin) Error.UnexpectedEndOfBuffer _ = _
              rw [hg]
              rfl
            change _ = SM.bind (SM.bind (getSelf bytes) _) _ _
            simp only [SM.bind, hgs]
          cases h
          trivial
        | some x =>
          have hgs : getSelf bytes ⟨r.start + k, fin⟩ = (.ok x, ⟨r.start + k, fin⟩) := by
            change SM.okOr (getRange bytes (r.start + k) fin) Error.UnexpectedEndOfBuffer _ = _
            rw [hg]
            rfl
          by_cases hx : utf8Ok x = true
          · have h : (Out.ok x, (⟨fin, r.fin⟩ : BytesReader)) = ((Out.err e : Out Bytes), r') := by
              rw [← h]
              change _ = SM.bind (SM.bind (getSelf bytes) _) _ _
              simp only [SM.bind, hgs, hx, if_true]
              rfl
            cases h
          · have h : (Out.err .Utf8, (⟨r.start + k, fin⟩ : BytesReader)) = ((Out.err e : Out Bytes), r') := by
              rw [← h]
              change _ = SM.bind (SM.bind (getSelf bytes) _) _ _
              simp only [SM.bind, hgs, hx]
              rfl
            cases h
            unfold getRange at hg
            split at hg
            · rename_i hc
              cases hg
              have hM : 2 ^ 32 ≤ 2 ^ C.T.usizeBits := Nat.pow_le_pow_right (by decide) hU
              have hn := n.isLt
              have hfin : fin = r.start + k + n.toNat := by
                unfold Target.usizeAdd at hadd
                split at hadd
                · cases hadd; rfl
                · split at hadd
                  · cases hadd
                  · cases hadd
                    rename_i hge _
                    exfalso
                    have h1 : (r.start + k + n.toNat) % 2 ^ C.T.usizeBits = r.start + k + n.toNat - 2 ^ C.T.usizeBits := by
                      rw [Nat.mod_eq_sub_mod (by omega), Nat.mod_eq_of_lt (by omega)]
                    omega
              refine ⟨hS, r.start, k, m, hv, by omega, fun hval => hx ?_⟩
              rw [utf8Ok_iff]
              have : fin - (r.start + k) = m % 2 ^ 32 := by omega
              rw [this]
              exact hval
            · cases hg

theorem fails_skip (offset : Nat) (h : ∃ n, UnknownField C bytes n ∧ (n % 8 = 1 ∨ n % 8 = 2 ∨ n % 8 = 5)) : Fails (Reason C bytes) (skip C.T offset) := by
  unfold skip
  refine fails_bind fails_get fun r => fails_bind (fails_sub _ _ _) fun rem => ?_
  split
  · exact fails_throw (Or.inr h)
  · exact fails_bind (fails_add _ _ _) fun _ => fails_set _

theorem fails_unknown {n : Nat} {tag : BitVec 32} (hn : UnknownField C bytes n) (ht : tag.toNat = n % 2 ^ 32) :
    Fails (Reason C bytes) (read_unknown C.T bytes tag) := by
  unfold read_unknown
  have h8 : ((tag &&& 0x7#32).setWidth 8 : Byte).toNat = n % 8 := by
    rw [BitVec.toNat_setWidth, BitVec.toNat_and, show (0x7#32).toNat = 2 ^ 3 - 1 from rfl, Nat.and_two_pow_sub_one_eq_mod, ht]
    omega
  generalize ((tag &&& 0x7#32).setWidth 8 : Byte) = t at h8
  dsimp only
  split
  · exact fails_bind fails_varint64 fun _ => fails_pure _
  split
  · rename_i h; subst h
    exact fails_skip _ ⟨n, hn, Or.inl h8.symm⟩
  split
  · rename_i h; subst h
    exact fails_skip _ ⟨n, hn, Or.inr (Or.inr h8.symm)⟩
  split
  · rename_i h; subst h
    refine fails_bind fails_varint64 fun _ => ?_
    split
    · exact fails_skip _ ⟨n, hn, Or.inr (Or.inl h8.symm)⟩
    · exact fails_throw (Or.inr ⟨n, hn, Or.inr (Or.inl h8.symm)⟩)
  split
  · rename_i h
    refine fails_throw ⟨n, hn, ?_⟩
    rcases h with rfl | rfl
    · exact Or.inl h8.symm
    · exact Or.inr h8.symm
  · rename_i h0 h1 h5 h2 h34
    refine fails_throw ⟨n, hn, h8.symm, ?_⟩
    have e : ∀ k : Nat, t.toNat = k → t = BitVec.ofNat 8 k := fun k hk => by rw [← hk, BitVec.ofNat_toNat, BitVec.setWidth_eq]
    rw [not_or] at h34
    have a0 : t.toNat ≠ 0 := fun h => h0 (e _ h)
    have a1 : t.toNat ≠ 1 := fun h => h1 (e _ h)
    have a2 : t.toNat ≠ 2 := fun h => h2 (e _ h)
    have a3 : t.toNat ≠ 3 := fun h => h34.1 (e _ h)
    have a4 : t.toNat ≠ 4 := fun h => h34.2 (e _ h)
    have a5 : t.toNat ≠ 5 := fun h => h5 (e _ h)
    omega

theorem fails_map {K V : Type} {T : Target} {fuel : Nat} {k0 : K} {v0 : V} {rk : RM K} {rv : RM V} (hM : Uses C (fun t => t.isMap = true))
    (hk : Fails (Reason C bytes) rk) (hv : Fails (Reason C bytes) rv) : Fails (Reason C bytes) (read_map T fuel bytes k0 v0 rk rv) := by
  unfold read_map
  refine fails_len_varint (fails_while (fun kv => ?_) _ _)
  refine fails_bind' fails_u8 fun r t r' h => ?_
  dsimp only
  split
  · exact fails_bind hk fun _ => fails_pure _
  split
  · exact fails_bind hv fun _ => fails_pure _
  · rename_i h1 h2
    have hb : bytes[r.start]? = Option.some t := by
      have h : SM.bind (SM.okOr bytes[r.start]? .UnexpectedEndOfBuffer) (fun b => SM.set { r with start := r.start + 1 } >>= fun _ => Pure.pure b) r = (.ok t, r') := h
      simp only [SM.bind] at h
      cases hb : bytes[r.start]? with
      | none =>
        rw [hb] at h
        cases h
      | some b =>
        rw [hb] at h
        have h : (Out.ok b, _) = (Out.ok t, r') := h
        cases h
        rfl
    have e : (t >>> 3).toNat = t.toNat / 8 := by rw [BitVec.toNat_ushiftRight, Nat.shiftRight_eq_div_pow]
    refine fails_throw ⟨hM, r.start, t, hb, e, fun h => h1 (BitVec.eq_of_toNat_eq h), fun h => h2 (BitVec.eq_of_toNat_eq h)⟩

theorem fails_packed_fixed {α : Type} {T : Target} {M : MemTy α} : Fails (Reason C bytes) (read_packed_fixed T M bytes) := by
  unfold read_packed_fixed
  refine fails_bind fails_varint32 fun n => ?_
  unfold BytesReader.len
  refine fails_bind (fails_bind fails_get fun r => fails_sub _ _ _) fun rem => ?_
  split
  · exact fails_throw trivial
  split
  · exact fails_lift fun e h => by cases h
  · refine fails_bind fails_get fun r => fails_bind (fails_add _ _ _) fun stop => fails_bind ?_ fun x => fails_bind (fails_add _ _ _) fun _ =>
      fails_bind (fails_set _) fun _ => fails_pure _
    split
    · exact fails_pure _
    · exact fails_lift fun e h => by cases h

theorem fails_typ {rd : MessageIndex → Bytes → RM RVal} (hU : 32 ≤ C.T.usizeBits) (hL : bytes.length < 2 ^ C.T.usizeBits)
    (hrd : ∀ i, Fails (Reason C bytes) (rd i bytes)) {t : FieldType}
    (hS : t = .stringCow ∨ t = .string_ → Uses C (fun t => t = .stringCow ∨ t = .string_)) : Fails (Reason C bytes) (readTyp C rd t bytes) := by
  have v32 : ∀ {β : Type} (g : BitVec 32 → RM β), (∀ x, Fails (Reason C bytes) (g x)) → Fails (Reason C bytes) (read_varint32 bytes >>= g) := fun g hg => fails_bind fails_varint32 hg
  have v64 : ∀ {β : Type} (g : BitVec 64 → RM β), (∀ x, Fails (Reason C bytes) (g x)) → Fails (Reason C bytes) (read_varint64 bytes >>= g) := fun g hg => fails_bind fails_varint64 hg
  cases t with
  | int32 => exact v32 _ fun _ => fails_pure _
  | uint32 => exact v32 _ fun _ => fails_pure _
  | int64 => exact v64 _ fun _ => fails_pure _
  | uint64 => exact v64 _ fun _ => fails_pure _
  | sint32 => exact fails_bind (v32 _ fun _ => fails_pure _) fun _ => fails_pure _
  | sint64 => exact fails_bind (v64 _ fun _ => fails_pure _) fun _ => fails_pure _
  | bool => exact fails_bind (v32 _ fun _ => fails_pure _) fun _ => fails_pure _
  | enum e => exact fails_bind (v32 _ fun _ => fails_pure _) fun _ => fails_pure _
  | fixed64 => exact fails_bind fails_fixed fun _ => fails_pure _
  | sfixed64 => exact fails_bind fails_fixed fun _ => fails_pure _
  | double => exact fails_bind fails_fixed fun _ => fails_pure _
  | fixed32 => exact fails_bind fails_fixed fun _ => fails_pure _
  | sfixed32 => exact fails_bind fails_fixed fun _ => fails_pure _
  | float => exact fails_bind fails_fixed fun _ => fails_pure _
  | stringCow => exact fails_bind (fails_string (hS (Or.inl rfl)) hU hL) fun _ => fails_pure _
  | string_ => exact fails_bind (fails_string (hS (Or.inr rfl)) hU hL) fun _ => fails_pure _
  | bytesCow => exact fails_bind (fails_len_varint fails_self) fun _ => fails_pure _
  | bytes_ => exact fails_bind (fails_len_varint fails_self) fun _ => fails_pure _
  | message i => exact fails_len_varint (hrd i)
  | map k v => exact fails_lift fun e h => by cases h
  | messageOrEnum n => exact fails_lift fun e h => by cases h

theorem fails_arm {rd : MessageIndex → Bytes → RM RVal} (hU : 32 ≤ C.T.usizeBits) (hL : bytes.length < 2 ^ C.T.usizeBits)
    (hrd : ∀ i, Fails (Reason C bytes) (rd i bytes)) {idx : MessageIndex} {m : Message} (hm : C.D.getMessage idx = Option.some m) {a : Arm}
    (ha : a ∈ arms C.cfg m) (fuel : Nat) : Fails (Reason C bytes) (armRead C rd fuel a bytes) := by
  have ht : Fails (Reason C bytes) (readTyp C rd a.field.typ bytes) :=
    fails_typ hU hL hrd fun h => ⟨idx, m, a, hm, ha, Or.inl h⟩
  unfold armRead
  split
  · exact ht
  split
  · exact ht
  · split
    · split
      · split
        · exact fails_bind fails_packed_fixed fun _ => fails_pure _
        · exact fails_bind fails_packed_fixed fun _ => fails_pure _
      · refine fails_bind (fails_len_varint (fails_bind (fails_while (fun acc => fails_bind ht fun _ => fails_pure _) _ _) fun _ => fails_pure _)) fun _ => fails_pure _
    · exact ht
  · split
    · rename_i k v hkv
      refine fails_bind (fails_map ⟨idx, m, a, hm, ha, Or.inl (by rw [hkv]; rfl)⟩ ?_ ?_) fun _ => fails_pure _
      · exact fails_typ hU hL hrd fun h => ⟨idx, m, a, hm, ha, Or.inr ⟨k, v, hkv, Or.inl h⟩⟩
      · exact fails_typ hU hL hrd fun h => ⟨idx, m, a, hm, ha, Or.inr ⟨k, v, hkv, Or.inr h⟩⟩
    · exact fails_lift fun e h => by cases h

theorem fails_fromReader (hU : 32 ≤ C.T.usizeBits) (hL : bytes.length < 2 ^ C.T.usizeBits) (fuel : Nat) :
    ∀ idx, Fails (Reason C bytes) (fromReader C fuel idx bytes) := by
  induction fuel with
  | zero => exact fun idx => fails_lift fun e h => by cases h
  | succ n ih =>
    intro idx
    unfold fromReader
    split
    · exact fails_lift fun e h => by cases h
    · rename_i m hm
      split
      · unfold read_to_end
        exact fails_bind (fails_bind fails_get fun r => fails_set _) fun _ => fails_pure _
      · refine fails_bind (fails_while (fun slots => ?_) _ _) fun _ => fails_pure _
        unfold msgStep
        refine fails_bind' fails_varint32 fun r t r' h => ?_
        obtain ⟨k, v, hv, htv, _⟩ := read_varint32_ok h
        split
        · rename_i a ha
          exact fails_bind (fails_arm hU hL ih hm (List.mem_of_find?_eq_some ha) _) fun _ => fails_pure _
        · rename_i hnone
          refine fails_bind (fails_unknown (n := v) ⟨⟨_, _, hv⟩, idx, m, hm, fun a ha e => ?_⟩ htv) fun _ => fails_pure _
          have := List.find?_eq_none.mp hnone a ha
          exact this (by rw [beq_iff_eq]; exact BitVec.eq_of_toNat_eq (e.trans htv.symm))

end

end QP.Gen
