import Verif.Proofs.Chunk
/-! Enough fuel is enough (with overflow checks). -/

set_option linter.unusedVariables false

namespace QP
open Spec BytesReader

section
variable {T : Target} {α β : Type}

/-- Never runs out of fuel. -/
def NoTimeout {α : Type} (p : Bytes → RM α) : Prop := ∀ b r, (p b r).1 ≠ .timeout

theorem NoTimeout.pure (a : α) : NoTimeout (fun _ => (Pure.pure a : RM α)) := by
  intro b r; simp [SM.pure_run]
theorem NoTimeout.throw (e : Error) : NoTimeout (fun _ => (SM.throw e : RM α)) := by
  intro b r; simp [SM.throw_run]
theorem NoTimeout.lift {o : Out α} (h : o ≠ .timeout) : NoTimeout (fun _ => (SM.lift o : RM α)) := by
  intro b r; simpa [SM.lift_run] using h
theorem NoTimeout.bind {p : Bytes → RM α} {q : α → Bytes → RM β} (hp : NoTimeout p)
    (hq : ∀ a, NoTimeout (q a)) : NoTimeout (fun bs => do let a ← p bs; q a bs) := by
  intro b r
  have h1 := hp b r
  simp only [SM.bind_run]
  rcases hpr : p b r with ⟨o, r1⟩
  rw [hpr] at h1
  cases o with
  | ok a => exact hq a b r1
  | _ => simp_all
theorem NoTimeout.ite {c : Prop} [Decidable c] {p q : Bytes → RM α} (hp : NoTimeout p)
    (hq : NoTimeout q) : NoTimeout (fun bs => if c then p bs else q bs) := by
  by_cases h : c
  · simp only [if_pos h]; exact hp
  · simp only [if_neg h]; exact hq
theorem NoTimeout.read_varint32 : NoTimeout read_varint32 := by
  intro b r
  rw [read_varint32_scan]
  cases scan 10 (b.drop r.start) <;> simp [scanOut32]
theorem NoTimeout.read_varint64 : NoTimeout read_varint64 := by
  intro b r
  rw [read_varint64_scan]
  cases scan 10 (b.drop r.start) <;> simp [scanOut64]
theorem NoTimeout.read_u8 : NoTimeout read_u8 := by
  intro b r
  rcases hd : b.drop r.start with _ | ⟨x, l⟩
  · rw [read_u8_nil hd]; simp
  · rw [read_u8_cons hd]; simp
theorem usizeAdd_nt (a b : Nat) : T.usizeAdd a b ≠ .timeout := by
  unfold Target.usizeAdd; split <;> (try split) <;> simp
theorem usizeSub_nt (a b : Nat) : T.usizeSub a b ≠ .timeout := by
  unfold Target.usizeSub; split <;> (try split) <;> simp
theorem NoTimeout.get : NoTimeout (fun _ => (SM.get : RM BytesReader)) := by
  intro b r; simp [SM.get_run]
theorem NoTimeout.set (s : BytesReader) : NoTimeout (fun _ => (SM.set s : RM Unit)) := by
  intro b r; simp [SM.set_run]
theorem NoTimeout.okOr (o : Option α) (e : Error) : NoTimeout (fun _ => (SM.okOr o e : RM α)) := by
  intro b r; cases o <;> simp [SM.okOr_run]
theorem NoTimeout.read_fixed (len : Nat) (f : Bytes → α) :
    NoTimeout (fun bs => BytesReader.read_fixed T bs len f) := by
  unfold BytesReader.read_fixed
  refine NoTimeout.bind NoTimeout.get (fun r => NoTimeout.bind (NoTimeout.lift (usizeAdd_nt _ _)) (fun stop => ?_))
  intro b
  exact NoTimeout.bind (NoTimeout.okOr (getRange b r.start stop) _) (fun c =>
    NoTimeout.bind (NoTimeout.set _) (fun _ => NoTimeout.pure _)) b
theorem NoTimeout.skip (n : Nat) : NoTimeout (fun _ => BytesReader.skip T n) := by
  unfold BytesReader.skip
  exact NoTimeout.bind NoTimeout.get (fun r => NoTimeout.bind (NoTimeout.lift (usizeSub_nt _ _)) (fun rem =>
    NoTimeout.ite (NoTimeout.throw _) (NoTimeout.bind (NoTimeout.lift (usizeAdd_nt _ _)) (fun _ => NoTimeout.set _))))
theorem NoTimeout.read_unknown (tag : BitVec 32) : NoTimeout (fun b => BytesReader.read_unknown T b tag) := by
  unfold BytesReader.read_unknown
  refine NoTimeout.ite (NoTimeout.bind NoTimeout.read_varint64 (fun _ => NoTimeout.pure ())) ?_
  refine NoTimeout.ite (NoTimeout.skip 8) ?_
  refine NoTimeout.ite (NoTimeout.skip 4) ?_
  refine NoTimeout.ite (NoTimeout.bind NoTimeout.read_varint64 (fun v => NoTimeout.ite (NoTimeout.skip _) (NoTimeout.throw _))) ?_
  exact NoTimeout.ite (NoTimeout.throw _) (NoTimeout.throw _)
theorem NoTimeout.read_packed_fixed (M : MemTy α) : NoTimeout (BytesReader.read_packed_fixed T M) := by
  unfold BytesReader.read_packed_fixed BytesReader.len
  refine NoTimeout.bind NoTimeout.read_varint32 (fun len => NoTimeout.bind
    (NoTimeout.bind NoTimeout.get (fun r => NoTimeout.lift (usizeSub_nt _ _))) (fun rem =>
    NoTimeout.ite (NoTimeout.throw _) (NoTimeout.ite (NoTimeout.lift (by simp)) ?_)))
  refine NoTimeout.bind NoTimeout.get (fun r => NoTimeout.bind (NoTimeout.lift (usizeAdd_nt _ _)) (fun stop => ?_))
  intro b
  refine NoTimeout.bind (p := fun _ => match getRange b r.start stop with
      | some x => Pure.pure x
      | none => SM.lift .panic) ?_ (fun x =>
    NoTimeout.bind (NoTimeout.lift (usizeAdd_nt _ _)) (fun _ => NoTimeout.bind (NoTimeout.set _) (fun _ => NoTimeout.pure _))) b
  cases getRange b r.start stop with
  | none => exact NoTimeout.lift (by simp)
  | some x => exact NoTimeout.pure x
theorem NoTimeout.read_len {p : Bytes → RM α} (hp : NoTimeout p) (len : Nat) :
    NoTimeout (fun bs => BytesReader.read_len T (p bs) len) := by
  unfold BytesReader.read_len
  exact NoTimeout.bind NoTimeout.get (fun r => NoTimeout.bind (NoTimeout.lift (usizeAdd_nt _ _)) (fun f =>
    NoTimeout.bind (NoTimeout.set _) (fun _ => NoTimeout.bind hp (fun v =>
      NoTimeout.bind NoTimeout.get (fun r => NoTimeout.bind (NoTimeout.set _) (fun _ => NoTimeout.pure _))))))
theorem NoTimeout.read_len_varint {p : Bytes → RM α} (hp : NoTimeout p) :
    NoTimeout (fun bs => BytesReader.read_len_varint T bs (p bs)) :=
  NoTimeout.bind NoTimeout.read_varint32 (fun v => NoTimeout.read_len hp v.toNat)
theorem NoTimeout.getSelf : NoTimeout getSelf := by
  unfold BytesReader.getSelf
  refine NoTimeout.bind NoTimeout.get (fun r => ?_)
  intro b
  exact NoTimeout.okOr (getRange b r.start r.fin) _ b
theorem NoTimeout.read_bytes : NoTimeout (read_bytes T) := NoTimeout.read_len_varint NoTimeout.getSelf
theorem NoTimeout.read_string : NoTimeout (read_string T) :=
  NoTimeout.read_len_varint (NoTimeout.bind NoTimeout.getSelf (fun x =>
    NoTimeout.ite (NoTimeout.pure x) (NoTimeout.throw _)))

/-- The two programs do the same at every position from `lo` on, and do not run out of fuel. -/
def Agree {α : Type} (b : Bytes) (lo : Nat) (p q : Bytes → RM α) : Prop :=
  ∀ r, InRange b r → lo ≤ r.start → p b r = q b r ∧ (p b r).1 ≠ .timeout

/-- Success means progress, and that there was something to read. -/
def Adv (T : Target) {α : Type} (p : Bytes → RM α) : Prop :=
  ∀ b r a r', Roomy T b → InRange b r → p b r = (.ok a, r') → r.start < r'.start ∧ r.start < b.length

theorem Agree.refl {p : Bytes → RM α} (h : NoTimeout p) (b : Bytes) (lo : Nat) : Agree b lo p p :=
  fun r _ _ => ⟨rfl, h b r⟩

theorem Agree.mono {p q : Bytes → RM α} {b : Bytes} {lo lo' : Nat} (h : Agree b lo p q) (hl : lo ≤ lo') :
    Agree b lo' p q := fun r hr hs => h r hr (by omega)

theorem Agree.bind {p p' : Bytes → RM α} {q q' : α → Bytes → RM β} {b : Bytes} {lo : Nat}
    (hR : Roomy T b) (gp : Good T p) (hp : Agree b lo p p') (hq : ∀ a, Agree b lo (q a) (q' a)) :
    Agree b lo (fun bs => do let a ← p bs; q a bs) (fun bs => do let a ← p' bs; q' a bs) := by
  intro r hr hs
  obtain ⟨h1, h2⟩ := hp r hr hs
  rcases hpr : p b r with ⟨o, r1⟩
  obtain ⟨g1, g2, _⟩ := gp.orderly b r hR hr o r1 hpr
  simp only [SM.bind_run, ← h1, hpr]
  rw [hpr] at h2
  cases o with
  | ok a => exact hq a r1 g2 (by omega)
  | _ => simp_all

theorem Agree.bind_adv {p p' : Bytes → RM α} {q q' : α → Bytes → RM β} {b : Bytes} {lo : Nat}
    (hR : Roomy T b) (gp : Good T p) (ap : Adv T p) (hp : Agree b lo p p')
    (hq : lo < b.length → ∀ a, Agree b (lo + 1) (q a) (q' a)) :
    Agree b lo (fun bs => do let a ← p bs; q a bs) (fun bs => do let a ← p' bs; q' a bs) := by
  intro r hr hs
  obtain ⟨h1, h2⟩ := hp r hr hs
  rcases hpr : p b r with ⟨o, r1⟩
  obtain ⟨g1, g2, _⟩ := gp.orderly b r hR hr o r1 hpr
  simp only [SM.bind_run, ← h1, hpr]
  rw [hpr] at h2
  cases o with
  | ok a =>
    obtain ⟨a1, a2⟩ := ap b r a r1 hR hr hpr
    exact hq (by omega) a r1 g2 (by omega)
  | _ => simp_all

theorem Agree.ite {c : Prop} [Decidable c] {p p' q q' : Bytes → RM α} {b : Bytes} {lo : Nat}
    (hp : Agree b lo p p') (hq : Agree b lo q q') :
    Agree b lo (fun bs => if c then p bs else q bs) (fun bs => if c then p' bs else q' bs) := by
  by_cases h : c
  · simp only [if_pos h]; exact hp
  · simp only [if_neg h]; exact hq

theorem Adv.read_varint32 : Adv T read_varint32 := fun b r a r' _ _ h => by
  have := read_varint32_in h; omega
theorem Adv.read_varint64 : Adv T read_varint64 := fun b r a r' _ _ h => by
  have := read_varint64_in h; omega
theorem Adv.read_u8 : Adv T read_u8 := by
  intro b r a r' _ _ h
  rcases hd : b.drop r.start with _ | ⟨x, l⟩
  · rw [read_u8_nil hd] at h; simp at h
  · rw [read_u8_cons hd] at h
    simp only [Prod.mk.injEq] at h
    have : r.start < b.length := by
      have := congrArg List.length hd
      simp at this; omega
    rw [← h.2]; exact ⟨by simp, this⟩

theorem Adv.bind {p : Bytes → RM α} {q : α → Bytes → RM β} (hp : Adv T p) (gp : Good T p)
    (gq : ∀ a, Good T (q a)) : Adv T (fun bs => do let a ← p bs; q a bs) := by
  intro b r c r' hR hr h
  obtain ⟨a, r1, h1, h2⟩ := SM.bind_ok_inv h
  obtain ⟨g1, g2, _⟩ := gp.orderly b r hR hr _ _ h1
  obtain ⟨k1, _, _⟩ := (gq a).orderly b r1 hR g2 _ _ h2
  have := hp b r a r1 hR hr h1
  omega

theorem Adv.map {p : Bytes → RM α} (hp : Adv T p) (f : α → β) :
    Adv T (fun bs => do let a ← p bs; Pure.pure (f a)) := by
  intro b r c r' hR hr h
  obtain ⟨a, r1, h1, h2⟩ := SM.bind_ok_inv h
  simp only [SM.pure_run, Prod.mk.injEq] at h2
  rw [← h2.2]; exact hp b r a r1 hR hr h1

theorem Adv.lift {o : Out α} (h : ∀ a, o ≠ .ok a) : Adv T (fun _ => (SM.lift o : RM α)) := by
  intro b r a r' _ _ he
  simp only [SM.lift_run, Prod.mk.injEq] at he
  exact absurd he.1 (h a)

theorem Adv.read_fixed {len : Nat} (h0 : 0 < len) (hlen : len ≤ 2 ^ 32) (f : Bytes → α) :
    Adv T (fun bs => BytesReader.read_fixed T bs len f) := by
  intro b r a r' hR hr h
  unfold InRange Roomy at *
  simp only [BytesReader.read_fixed, SM.bind_run, SM.get_run, SM.lift_run,
      usizeAdd_ok (T := T) (a := r.start) (b := len) (by omega), SM.okOr_run] at h
  cases hg : getRange b r.start (r.start + len) with
  | none => rw [hg] at h; simp at h
  | some c =>
    rw [hg] at h
    simp only [SM.set_run, SM.pure_run, Prod.mk.injEq, Out.ok.injEq] at h
    rw [← h.2]
    unfold getRange at hg
    split at hg
    · simp only; omega
    · cases hg

theorem Adv.read_len_varint {p : Bytes → RM α} (hp : GoodEntry T p) :
    Adv T (fun bs => BytesReader.read_len_varint T bs (p bs)) := by
  intro b r c r' hR hr h
  obtain ⟨v, r1, h1, h2⟩ := SM.bind_ok_inv h
  have h3 := read_varint32_in h1
  have g := (Good.read_varint32.orderly b r hR hr _ _ h1).2.1
  have := (read_len_orderly hp v.isLt hR g h3.2.1 h2).1
  omega

theorem Agree.loop {A : Type} {step step' : Bytes → A → RM A} {b : Bytes} (hR : Roomy T b)
    (hg : ∀ a, Good T (fun b => step b a)) (ha : ∀ a, Adv T (fun b => step b a))
    {lo : Nat} (hs : ∀ a, Agree b lo (fun b => step b a) (fun b => step' b a)) {f f' : Nat}
    (hf : b.length - lo < f) (hf' : b.length - lo < f') (acc : A) :
    Agree b lo (fun b => whileNotEof (step b) f acc) (fun b => whileNotEof (step' b) f' acc) := by
  induction f generalizing f' lo acc with
  | zero => omega
  | succ n ih =>
    obtain ⟨n', rfl⟩ : ∃ k, f' = k + 1 := ⟨f' - 1, by omega⟩
    intro r hr hlo
    simp only [BytesReader.whileNotEof, SM.bind_run, SM.get_run]
    by_cases he : r.is_eof = true
    · rw [if_pos he, if_pos he]; exact ⟨rfl, by simp [SM.pure_run]⟩
    rw [if_neg he, if_neg he]
    refine Agree.bind_adv (q := fun acc b => whileNotEof (step b) n acc)
      (q' := fun acc b => whileNotEof (step' b) n' acc) hR (hg acc) (ha acc) (hs acc) (fun hl a => ?_) r hr hlo
    exact ih (fun a => (hs a).mono (by omega)) (by omega) (by omega) a

theorem Agree.read_len_varint {p p' : Bytes → RM α} {b : Bytes} {lo : Nat} (hR : Roomy T b)
    (hp : lo < b.length → Agree b (lo + 1) p p') :
    Agree b lo (fun bs => BytesReader.read_len_varint T bs (p bs))
      (fun bs => BytesReader.read_len_varint T bs (p' bs)) := by
  intro r hr hs
  simp only [BytesReader.read_len_varint, SM.bind_run]
  rcases hv : BytesReader.read_varint32 b r with ⟨o, r1⟩
  have hnt := NoTimeout.read_varint32 b r
  rw [hv] at hnt
  cases o with
  | ok v =>
    have hin := read_varint32_in hv
    have hR' := hR
    unfold Roomy at hR'
    have hlt := v.isLt
    simp only [read_len, SM.bind_run, SM.get_run, SM.lift_run,
      usizeAdd_ok (T := T) (a := r1.start) (b := v.toNat) (by omega), SM.set_run]
    obtain ⟨h1, h2⟩ := hp (by omega) ⟨r1.start, r1.start + v.toNat⟩
      (by unfold InRange; simp only; omega) (by simp only; omega)
    rw [← h1]
    rcases hq : p b ⟨r1.start, r1.start + v.toNat⟩ with ⟨o, r2⟩
    rw [hq] at h2
    cases o with
    | ok a => simp [SM.pure_run]
    | _ => simp_all
  | _ => simp_all

end
end QP

namespace QP.Gen
open QP.Pbrs Spec BytesReader

section
variable {C : Ctx} {rd rd' : MessageIndex → Bytes → RM RVal}

theorem adv_readTyp (hrd : ∀ m, GoodEntry C.T (rd m)) (t : FieldType) : Adv C.T (readTyp C rd t) := by
  have hm : ∀ {α : Type} {p : Bytes → RM α} (f : α → RVal), Adv C.T p →
      Adv C.T (fun b => do let x ← p b; pure (f x)) := fun f hp => Adv.map hp f
  have v32 := Adv.read_varint32 (T := C.T)
  have v64 := Adv.read_varint64 (T := C.T)
  have f32 := Adv.read_fixed (T := C.T) (len := 4) (by omega) (by omega) leRead32
  have f64 := Adv.read_fixed (T := C.T) (len := 8) (by omega) (by omega) leRead64
  have by_ : Adv C.T (read_bytes C.T) := Adv.read_len_varint (Good.entry Good.getSelf)
  have st : Adv C.T (read_string C.T) := Adv.read_len_varint
    (Good.entry (Good.bind Good.getSelf (fun x => Good.ite (Good.pure x) (Good.throw _))))
  cases t
  case int32 => exact hm RVal.w32 v32
  case int64 => exact hm RVal.w64 v64
  case uint32 => exact hm RVal.w32 v32
  case uint64 => exact hm RVal.w64 v64
  case sint32 => exact hm RVal.w32 (Adv.map v32 _)
  case sint64 => exact hm RVal.w64 (Adv.map v64 _)
  case bool => exact hm RVal.bool (Adv.map v32 _)
  case enum e => exact hm RVal.w32 (Adv.map v32 _)
  case fixed64 => exact hm RVal.w64 f64
  case sfixed64 => exact hm RVal.w64 f64
  case double => exact hm RVal.w64 f64
  case fixed32 => exact hm RVal.w32 f32
  case sfixed32 => exact hm RVal.w32 f32
  case float => exact hm RVal.w32 f32
  case stringCow => exact hm RVal.bytes st
  case string_ => exact hm RVal.bytes st
  case bytesCow => exact hm RVal.bytes by_
  case bytes_ => exact hm RVal.bytes by_
  case message m => exact Adv.read_len_varint (hrd m)
  case messageOrEnum => exact Adv.lift (by simp)
  case map => exact Adv.lift (by simp)

theorem agree_readTyp {b : Bytes} {lo : Nat} (hR : Roomy C.T b)
    (h : lo < b.length → ∀ m, Agree b (lo + 1) (rd m) (rd' m)) (t : FieldType) :
    Agree b lo (readTyp C rd t) (readTyp C rd' t) := by
  have hm : ∀ {α : Type} {p : Bytes → RM α} (f : α → RVal), NoTimeout p →
      Agree b lo (fun b => do let x ← p b; pure (f x)) (fun b => do let x ← p b; pure (f x)) :=
    fun f hp => Agree.refl (NoTimeout.bind hp (fun a => NoTimeout.pure _)) b lo
  have mp : ∀ {α β : Type} {p : Bytes → RM α} (f : α → β), NoTimeout p →
      NoTimeout (fun b => do let x ← p b; pure (f x)) := fun f hp => NoTimeout.bind hp (fun a => NoTimeout.pure _)
  have v32 := NoTimeout.read_varint32
  have v64 := NoTimeout.read_varint64
  have f32 := NoTimeout.read_fixed (T := C.T) 4 leRead32
  have f64 := NoTimeout.read_fixed (T := C.T) 8 leRead64
  have by_ := NoTimeout.read_bytes (T := C.T)
  have st := NoTimeout.read_string (T := C.T)
  cases t
  case int32 => exact hm RVal.w32 v32
  case int64 => exact hm RVal.w64 v64
  case uint32 => exact hm RVal.w32 v32
  case uint64 => exact hm RVal.w64 v64
  case sint32 => exact hm RVal.w32 (mp _ v32)
  case sint64 => exact hm RVal.w64 (mp _ v64)
  case bool => exact hm RVal.bool (mp _ v32)
  case enum e => exact hm RVal.w32 (mp _ v32)
  case fixed64 => exact hm RVal.w64 f64
  case sfixed64 => exact hm RVal.w64 f64
  case double => exact hm RVal.w64 f64
  case fixed32 => exact hm RVal.w32 f32
  case sfixed32 => exact hm RVal.w32 f32
  case float => exact hm RVal.w32 f32
  case stringCow => exact hm RVal.bytes st
  case string_ => exact hm RVal.bytes st
  case bytesCow => exact hm RVal.bytes by_
  case bytes_ => exact hm RVal.bytes by_
  case message m => exact Agree.read_len_varint hR (fun hl => h hl m)
  case messageOrEnum => exact Agree.refl (NoTimeout.lift (by simp)) _ _
  case map => exact Agree.refl (NoTimeout.lift (by simp)) _ _

theorem agree_armRead (hT : C.T.overflowChecks = true) {b : Bytes} {lo : Nat} (hR : Roomy C.T b)
    (hg : ∀ m, GoodEntry C.T (rd m))
    (h : lo < b.length → ∀ m, Agree b (lo + 1) (rd m) (rd' m)) {f f' : Nat}
    (hf : b.length - lo < f) (hf' : b.length - lo < f') (a : Arm) :
    Agree b lo (armRead C rd f a) (armRead C rd' f' a) := by
  have ht := agree_readTyp hR h
  have ht' : ∀ t, Agree b (lo + 1) (readTyp C rd t) (readTyp C rd' t) := fun t => (ht t).mono (by omega)
  have gt := good_readTyp hT hg
  have at_ := adv_readTyp (C := C) hg
  have hmap : ∀ {α β : Type} {p p' : Bytes → RM α} {lo : Nat} (f : α → β), Good C.T p → Agree b lo p p' →
      Agree b lo (fun b => do let x ← p b; pure (f x)) (fun b => do let x ← p' b; pure (f x)) :=
    fun f gp hp => Agree.bind hR gp hp (fun a => Agree.refl (NoTimeout.pure _) _ _)
  unfold armRead
  refine Agree.ite (ht _) ?_
  cases a.field.frequency.generated
  · exact ht _
  · refine Agree.ite (Agree.ite (Agree.ite ?_ ?_) ?_) (ht _)
    · exact Agree.refl (NoTimeout.bind (NoTimeout.read_packed_fixed _) (fun _ => NoTimeout.pure _)) _ _
    · exact Agree.refl (NoTimeout.bind (NoTimeout.read_packed_fixed _) (fun _ => NoTimeout.pure _)) _ _
    · refine hmap _ (good_packed (gt _) f) (Agree.read_len_varint hR (fun hl => ?_))
      have gs : ∀ acc : List RVal, Good C.T (fun b => (do let m ← readTyp C rd a.field.typ b; pure (m :: acc))) :=
        fun acc => Good.bind (gt _) (fun m => Good.pure _)
      refine hmap _ (Good.whileNotEof (step := fun b (acc : List RVal) => (do let m ← readTyp C rd a.field.typ b; pure (m :: acc)))
        gs f []) ?_
      exact Agree.loop hR
        (step := fun b (acc : List RVal) => (do let m ← readTyp C rd a.field.typ b; pure (m :: acc)))
        (step' := fun b (acc : List RVal) => (do let m ← readTyp C rd' a.field.typ b; pure (m :: acc)))
        gs (fun acc => Adv.map (at_ _) _) (fun acc => hmap _ (gt _) (ht' _)) (by omega) (by omega) []
  · cases a.field.typ
    case map k v =>
      refine hmap _ (good_map (gt k) (gt v) f _ _) (Agree.read_len_varint hR (fun hl => ?_))
      have gs : ∀ kv : RVal × RVal, Good C.T (fun b => (do
          let t ← read_u8 b
          let n := t >>> 3
          if n = 1#8 then do
            let k ← readTyp C rd k b
            pure (k, kv.2)
          else if n = 2#8 then do
            let v ← readTyp C rd v b
            pure (kv.1, v)
          else SM.throw (.Map n))) := fun kv =>
        Good.bind Good.read_u8 (fun t => Good.ite (Good.bind (gt k) (fun k => Good.pure (k, kv.2)))
          (Good.ite (Good.bind (gt v) (fun v => Good.pure (kv.1, v))) (Good.throw _)))
      exact Agree.loop hR
        (step := fun b (kv : RVal × RVal) => (do
          let t ← read_u8 b
          let n := t >>> 3
          if n = 1#8 then do
            let k ← readTyp C rd k b
            pure (k, kv.2)
          else if n = 2#8 then do
            let v ← readTyp C rd v b
            pure (kv.1, v)
          else SM.throw (.Map n)))
        (step' := fun b (kv : RVal × RVal) => (do
          let t ← read_u8 b
          let n := t >>> 3
          if n = 1#8 then do
            let k ← readTyp C rd' k b
            pure (k, kv.2)
          else if n = 2#8 then do
            let v ← readTyp C rd' v b
            pure (kv.1, v)
          else SM.throw (.Map n)))
        gs (fun kv => Adv.bind Adv.read_u8 Good.read_u8 (fun t =>
          Good.ite (Good.bind (gt k) (fun k => Good.pure (k, kv.2)))
            (Good.ite (Good.bind (gt v) (fun v => Good.pure (kv.1, v))) (Good.throw _))))
        (fun kv => Agree.bind hR Good.read_u8 (Agree.refl NoTimeout.read_u8 _ _) (fun t =>
          Agree.ite (hmap (fun k => (k, kv.2)) (gt k) (ht' k)) (Agree.ite (hmap (fun v => (kv.1, v)) (gt v) (ht' v))
            (Agree.refl (NoTimeout.throw _) _ _))))
        (by omega) (by omega) _
    all_goals exact Agree.refl (NoTimeout.lift (by simp)) _ _

theorem adv_msgStep (hT : C.T.overflowChecks = true) (hg : ∀ m, GoodEntry C.T (rd m)) (f : Nat)
    (as : List Arm) (slots : List RVal) : Adv C.T (fun b => msgStep C rd f as b slots) := by
  unfold msgStep
  refine Adv.bind Adv.read_varint32 Good.read_varint32 (fun t => ?_)
  cases as.find? (fun a => a.field.tag == t) with
  | none => exact Good.bind (Good.read_unknown hT t) (fun _ => Good.pure _)
  | some a => exact Good.bind (good_armRead hT hg f a) (fun _ => Good.pure _)

theorem agree_msgStep (hT : C.T.overflowChecks = true) {b : Bytes} {lo : Nat} (hR : Roomy C.T b)
    (hg : ∀ m, GoodEntry C.T (rd m))
    (h : lo < b.length → ∀ m, Agree b (lo + 1) (rd m) (rd' m)) {f f' : Nat}
    (hf : b.length - lo < f) (hf' : b.length - lo < f') (as : List Arm) (slots : List RVal) :
    Agree b lo (fun b => msgStep C rd f as b slots) (fun b => msgStep C rd' f' as b slots) := by
  unfold msgStep
  refine Agree.bind_adv hR Good.read_varint32 Adv.read_varint32 (Agree.refl NoTimeout.read_varint32 _ _)
    (fun hl t => ?_)
  cases as.find? (fun a => a.field.tag == t) with
  | none =>
    exact Agree.refl (NoTimeout.bind (NoTimeout.read_unknown t) (fun _ => NoTimeout.pure _)) _ _
  | some a =>
    exact Agree.bind hR (good_armRead hT hg f a)
      (agree_armRead hT hR hg (fun _ m => (h hl m).mono (by omega)) (by omega) (by omega) a)
      (fun v => Agree.refl (NoTimeout.pure _) _ _)

end

/-- With overflow checks: two amounts of fuel above the number of bytes left give the same run, and
it does not run out of fuel. -/
theorem agree_fromReader {C : Ctx} (hT : C.T.overflowChecks = true) {b : Bytes} (hR : Roomy C.T b)
    (n n' : Nat) (idx : MessageIndex) (lo : Nat) (hn : b.length - lo < n) (hn' : b.length - lo < n') :
    Agree b lo (fromReader C n idx) (fromReader C n' idx) := by
  induction n generalizing n' idx lo with
  | zero => omega
  | succ n ih =>
    obtain ⟨n', rfl⟩ : ∃ k, n' = k + 1 := ⟨n' - 1, by omega⟩
    cases h : C.D.getMessage idx with
    | none =>
      rw [fromReader_none n h, fromReader_none n' h]
      exact Agree.refl (NoTimeout.lift (by simp)) _ _
    | some m =>
      cases hu : m.isUnit
      · rw [fromReader_msg n h hu, fromReader_msg n' h hu]
        have gs : ∀ s, Good C.T (fun b => msgStep C (fromReader C n) (n + 1) (arms C.cfg m) b s) :=
          fun s => good_msgStep hT (goodEntry_fromReader hT n) (n + 1) _ s
        refine Agree.bind hR (Good.whileNotEof
          (step := fun b => msgStep C (fromReader C n) (n + 1) (arms C.cfg m) b) gs (n + 1) _) ?_
          (fun s => Agree.refl (NoTimeout.pure _) _ _)
        refine Agree.loop hR (step := fun b => msgStep C (fromReader C n) (n + 1) (arms C.cfg m) b)
          (step' := fun b => msgStep C (fromReader C n') (n' + 1) (arms C.cfg m) b) gs
          (fun s => adv_msgStep hT (goodEntry_fromReader hT n) _ _ s)
          (fun s => agree_msgStep hT hR (goodEntry_fromReader hT n)
            (fun hl i => ih n' i (lo + 1) (by omega) (by omega)) (by omega) (by omega) _ s)
          (by omega) (by omega) _
      · rw [fromReader_unit n h hu, fromReader_unit n' h hu]
        unfold read_to_end
        exact Agree.refl (NoTimeout.bind (NoTimeout.bind NoTimeout.get (fun r => NoTimeout.set _))
          (fun _ => NoTimeout.pure _)) _ _

end QP.Gen
